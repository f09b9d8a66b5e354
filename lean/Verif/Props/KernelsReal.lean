import Verif.Props.Kernels
import Mathlib.Analysis.SpecialFunctions.Trigonometric.Sinc
import Mathlib.Analysis.SpecialFunctions.Trigonometric.Bounds
import Mathlib.Analysis.Real.Pi.Bounds
/-
C62: the kernels over the reals: continuity, `sinc` and `lanczos`.
-/
namespace Nda
open Spec Kernel

/-! ### Continuity -/

/-- C62: `linear` is continuous. -/
theorem C62_linear_continuous : Continuous (linear : ℝ → ℝ) := by
  have : (linear : ℝ → ℝ) = fun s => max 0 (1 - |s|) := by
    funext s
    unfold linear
    split <;> rename_i h
    · exact (max_eq_right h.le).symm
    · exact (max_eq_left (not_lt.1 h)).symm
  rw [this]
  exact continuous_const.max (continuous_const.sub continuous_abs)

/-- C62: `quadratic_family` is continuous, for every `r`. -/
theorem C62_quadratic_continuous (r : ℝ) : Continuous fun s : ℝ => quadraticFamily s r := by
  have : (fun s : ℝ => quadraticFamily s r) = fun s => if |s| ≤ 1 / 2 then -2 * r * s ^ 2 + 1 / 2 * (r + 1)
      else if |s| ≤ 3 / 2 then r * s ^ 2 + (-2 * r - 1 / 2) * |s| + 3 / 4 * (r + 1) else 0 := by
    funext s
    split <;> rename_i h
    · rcases h.lt_or_eq with h | h
      · exact quadratic_near h
      · rw [quadratic_mid h.ge (by rw [h]; norm_num), ← sq_abs, h]
        ring
    · split <;> rename_i h'
      · exact quadratic_mid (not_le.1 h).le h'
      · exact quadratic_far (not_le.1 h').le
  rw [this]
  refine Continuous.if_le (by fun_prop) (Continuous.if_le (by fun_prop) continuous_const continuous_abs
    continuous_const ?_) continuous_abs continuous_const ?_
  · intro s hs
    rw [← sq_abs, hs]; ring
  · intro s hs
    rw [if_pos (by rw [hs]; norm_num), ← sq_abs, hs]; ring

/-- C62: `cubic_family` is continuous, for every `B` and `C`. -/
theorem C62_cubic_continuous (B C : ℝ) : Continuous fun s : ℝ => cubicFamily s B C := by
  have : (fun s : ℝ => cubicFamily s B C) = fun s =>
      if |s| ≤ 1 then (2 - B * (3 / 2) - C) * |s| ^ 3 + (-3 + 2 * B + C) * |s| ^ 2 + (1 - B / 3)
      else if |s| ≤ 2 then (-B / 6 - C) * |s| ^ 3 + (B + 5 * C) * |s| ^ 2 + (-2 * B - 8 * C) * |s| +
        (B * 4 / 3 + 4 * C) else 0 := by
    funext s
    split <;> rename_i h
    · exact cubic_near h
    · split <;> rename_i h'
      · exact cubic_mid (not_le.1 h).le h'
      · exact cubic_far (not_le.1 h').le
  rw [this]
  refine Continuous.if_le (by fun_prop) (Continuous.if_le (by fun_prop) continuous_const continuous_abs
    continuous_const ?_) continuous_abs continuous_const ?_
  · intro s hs
    rw [hs]; ring
  · intro s hs
    rw [if_pos (by rw [hs]; norm_num), hs]; ring

/-- C62: `box` is not continuous, although a `continuous_kernel` can be made of it. -/
theorem C62_box_not_continuous : ¬ Continuous (box : ℝ → ℝ) := by
  intro h
  have hcl : IsClosed ((box : ℝ → ℝ) ⁻¹' {0}) := isClosed_singleton.preimage h
  have hmem : (1 / 2 : ℝ) ∈ closure (Set.Ioi (1 / 2 : ℝ)) := by
    rw [closure_Ioi]; exact Set.self_mem_Ici
  have hsub : Set.Ioi (1 / 2 : ℝ) ⊆ (box : ℝ → ℝ) ⁻¹' {0} := by
    intro s hs
    exact (C62_box (K := ℝ)).2.1 s (lt_of_lt_of_le hs (le_abs_self s))
  have := hcl.closure_subset_iff.2 hsub hmem
  simp only [Set.mem_preimage, Set.mem_singleton_iff] at this
  unfold box at this
  rw [if_pos (by rw [abs_of_pos] <;> norm_num)] at this
  exact one_ne_zero this

/-! ### sinc and lanczos -/

theorem sinc_even (s : ℝ) : Kernel.sinc (-s) = Kernel.sinc s := by
  unfold Kernel.sinc
  simp only [neg_mul, abs_neg, Real.sin_neg, neg_div_neg_eq]

theorem sinc_zero' : Kernel.sinc 0 = 1 := by
  unfold Kernel.sinc
  simp

/-- C62: `sinc` differs by at most 10⁻¹² from sin(πs)/(πs). -/
theorem C62_sinc (s : ℝ) : |Kernel.sinc s - Real.sinc (s * Real.pi)| ≤ 1 / 10 ^ 12 := by
  unfold Kernel.sinc
  dsimp only
  generalize s * Real.pi = x
  split <;> rename_i h
  · have : x ≠ 0 := by rintro rfl; norm_num at h
    rw [Real.sinc_of_ne_zero this, sub_self, abs_zero]
    positivity
  · rw [gt_iff_lt, not_lt] at h
    have key : ∀ y : ℝ, 0 < y → y ≤ 1 / 1000000 → |1 - Real.sinc y| ≤ 1 / 10 ^ 12 := by
      intro y h0 h1
      rw [Real.sinc_of_ne_zero h0.ne']
      have a := Real.sin_gt_sub_cube h0
      have b := Real.sin_lt h0
      have c : Real.sin y / y < 1 := by rw [div_lt_one h0]; exact b
      have d : 1 - y ^ 2 / 6 < Real.sin y / y := by
        rw [lt_div_iff₀ h0]
        nlinarith
      have e : y ^ 2 ≤ 1 / 10 ^ 12 := by
        calc y ^ 2 ≤ (1 / 1000000) ^ 2 := by gcongr
          _ = 1 / 10 ^ 12 := by norm_num
      rw [abs_of_pos (by linarith)]
      have := sq_nonneg y
      linarith
    rcases lt_trichotomy x 0 with hx | rfl | hx
    · rw [abs_of_neg hx] at h
      have := key (-x) (by linarith) h
      rwa [Real.sinc_neg] at this
    · simp
    · rw [abs_of_pos hx] at h
      exact key x hx h

theorem abs_sinc_le (s : ℝ) : |Kernel.sinc s| ≤ 1 := by
  unfold Kernel.sinc
  dsimp only
  split <;> rename_i h
  · have : s * Real.pi ≠ 0 := by intro e; rw [e] at h; norm_num at h
    rw [← Real.sinc_of_ne_zero this]
    exact Real.abs_sinc_le_one _
  · simp

theorem sinc_int {n : ℤ} (h : n ≠ 0) : Kernel.sinc n = 0 := by
  unfold Kernel.sinc
  dsimp only
  rw [if_pos, Real.sin_int_mul_pi, zero_div]
  have h1 : (1 : ℝ) ≤ |(n : ℝ)| := by exact_mod_cast Int.one_le_abs h
  rw [abs_mul, abs_of_pos Real.pi_pos]
  have := Real.pi_gt_three
  nlinarith

theorem sinc_pos {s : ℝ} (h : |s| < 1) : 0 < Kernel.sinc s := by
  have key : ∀ x : ℝ, 0 ≤ x → x < 1 → 0 < Kernel.sinc x := by
    intro x h0 h1
    unfold Kernel.sinc
    dsimp only
    split <;> rename_i hx
    · have hp := Real.pi_pos
      have h2 : 0 < x * Real.pi := by
        rcases h0.lt_or_eq with h | h
        · positivity
        · rw [← h] at hx; norm_num at hx
      exact div_pos (Real.sin_pos_of_pos_of_lt_pi h2 (by nlinarith)) h2
    · norm_num
  rcases le_or_gt 0 s with h0 | h0
  · exact key s h0 (by rwa [abs_of_nonneg h0] at h)
  · rw [← sinc_even]
    exact key (-s) (by linarith) (by rwa [abs_of_neg h0] at h)

/-- C62: with at least one side lobe, `lanczos` is symmetric, zero from distance `side_lobes` on, interpolating,
positive at distances less than one, and never more than one in absolute value. -/
theorem C62_lanczos (L : Int) (hL : 1 ≤ L) : Symmetric (fun s : ℝ => lanczos s L) ∧
    VanishesFrom (fun s : ℝ => lanczos s L) L ∧ Interpolating (fun s : ℝ => lanczos s L) ∧
    (∀ s : ℝ, |s| < 1 → 0 < lanczos s L) ∧ ∀ s : ℝ, |lanczos s L| ≤ 1 := by
  have hL' : (1 : ℝ) ≤ (L : ℝ) := by exact_mod_cast hL
  have hint : ∀ n : ℤ, n ≠ 0 → lanczos (n : ℝ) L = 0 := by
    intro n hn
    unfold lanczos
    rw [sinc_int hn, zero_mul, ite_self]
  refine ⟨fun s => ?_, fun s hs => ?_, ⟨?_, hint⟩, fun s hs => ?_, fun s => ?_⟩
  · show lanczos (-s) L = lanczos s L
    unfold lanczos
    rw [abs_neg, sinc_even, neg_div, sinc_even]
  · show lanczos s L = 0
    rcases hs.lt_or_eq with h | h
    · unfold lanczos
      rw [if_neg (not_le.2 h)]
    · rcases abs_choice s with h' | h'
      · rw [show s = ((L : ℤ) : ℝ) by rw [h, h']]
        exact hint L (by omega)
      · rw [show s = ((-L : ℤ) : ℝ) by push_cast; rw [h, h']; ring]
        exact hint (-L) (by omega)
  · show lanczos 0 L = 1
    unfold lanczos
    rw [zero_div, sinc_zero', if_pos (by rw [abs_zero]; linarith), one_mul]
  · unfold lanczos
    rw [if_pos (by linarith)]
    refine mul_pos (sinc_pos hs) (sinc_pos ?_)
    rw [abs_div, abs_of_pos (show (0 : ℝ) < L by linarith), div_lt_one (by linarith)]
    linarith
  · unfold lanczos
    split
    · rw [abs_mul]
      exact mul_le_one₀ (abs_sinc_le _) (abs_nonneg _) (abs_sinc_le _)
    · simp

/-- C62: `lanczos` does not reconstruct constants: with one side lobe the weights halfway between two samples
add up to 8/π² (the values are divided by their sum later). -/
theorem C62_lanczos_counterexample :
    ∑ n ∈ ({0, 1} : Finset ℤ), lanczos ((1 / 2 : ℝ) - n) 1 = 8 / Real.pi ^ 2 ∧ 8 / Real.pi ^ 2 < 1 := by
  have hp := Real.pi_gt_three
  have hs : Kernel.sinc (1 / 2) = 2 / Real.pi := by
    unfold Kernel.sinc
    dsimp only
    rw [if_pos (by rw [abs_of_pos (by positivity)]; linarith)]
    rw [show (1 / 2 : ℝ) * Real.pi = Real.pi / 2 by ring, Real.sin_pi_div_two]
    field_simp
  have h1 : lanczos (1 / 2) 1 = 4 / Real.pi ^ 2 := by
    unfold lanczos
    rw [if_pos (by rw [abs_of_pos] <;> norm_num), Int.cast_one, div_one, hs]
    field_simp
    norm_num
  constructor
  · rw [Finset.sum_insert (by simp), Finset.sum_singleton]
    have e : lanczos ((1 / 2 : ℝ) - ((1 : ℤ) : ℝ)) 1 = lanczos (1 / 2) 1 := by
      have := (C62_lanczos 1 le_rfl).1 (1 / 2)
      simp only at this
      rw [← this]
      norm_num
    rw [e, Int.cast_zero, sub_zero, h1]
    ring
  · rw [div_lt_one (by positivity)]
    nlinarith

end Nda
