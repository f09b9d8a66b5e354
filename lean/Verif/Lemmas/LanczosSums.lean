import Verif.Props.KernelsReal
import Verif.Lemmas.KernelSums
import Mathlib.Analysis.Convex.SpecificFunctions.Deriv
import Mathlib.Analysis.Real.Pi.Bounds
import Mathlib.Analysis.SpecialFunctions.Trigonometric.Bounds
/-
Sums of values of the Lanczos kernel at equally spaced positions are positive: summation by parts, with the
closed form of the sums of sines.
-/
namespace Nda
open Kernel

/-- Summation by parts with weights that decrease and partial sums that are bounded below. -/
theorem abel_bound (u g : ℕ → ℝ) (P : ℝ) (hg : ∀ j, g (j + 1) ≤ g j) (hg0 : ∀ j, 0 ≤ g j)
    (hS : ∀ n, -P ≤ ∑ j ∈ Finset.range (n + 1), u j) (n : ℕ) :
    (g 0 - g 1) * u 0 - g 1 * P ≤ ∑ j ∈ Finset.range (n + 1), u j * g j := by
  have key : ∀ n : ℕ, (g 0 - g 1) * u 0 - g 1 * P + g (n + 1) * (∑ j ∈ Finset.range (n + 2), u j + P) ≤
      ∑ j ∈ Finset.range (n + 2), u j * g j := by
    intro n
    induction n with
    | zero =>
      simp only [Finset.sum_range_succ, Finset.sum_range_zero]
      nlinarith
    | succ n ih =>
      rw [Finset.sum_range_succ (fun j => u j * g j), Finset.sum_range_succ u (n + 2)]
      have h1 := hg (n + 1)
      have h2 := hS (n + 1)
      nlinarith [mul_nonneg (sub_nonneg.2 h1) (show 0 ≤ ∑ j ∈ Finset.range (n + 2), u j + P by
        have : n + 1 + 1 = n + 2 := rfl
        rw [this] at h2; linarith)]
  cases n with
  | zero =>
    simp only [Finset.sum_range_succ, Finset.sum_range_zero]
    have h := hS 0
    simp only [Finset.sum_range_succ, Finset.sum_range_zero] at h
    nlinarith [mul_nonneg (hg0 1) (show 0 ≤ u 0 + P by linarith)]
  | succ n =>
    refine le_trans ?_ (key n)
    have := mul_nonneg (hg0 (n + 1)) (show 0 ≤ ∑ j ∈ Finset.range (n + 2), u j + P by
      have := hS (n + 1); have e : n + 1 + 1 = n + 2 := rfl; rw [e] at this; linarith)
    linarith

theorem sum_sin (d x : ℝ) (n : ℕ) :
    2 * Real.sin (x / 2) * ∑ j ∈ Finset.range n, Real.sin ((d + j) * x) =
      Real.cos ((d - 1 / 2) * x) - Real.cos ((d + n - 1 / 2) * x) := by
  induction n with
  | zero => simp
  | succ n ih =>
    rw [Finset.sum_range_succ, mul_add, ih]
    have h1 : (d + n - 1 / 2) * x = (d + n) * x - x / 2 := by ring
    have h2 : (d + ((n + 1 : ℕ) : ℝ) - 1 / 2) * x = (d + n) * x + x / 2 := by push_cast; ring
    rw [h1, h2, Real.cos_sub ((d + n) * x), Real.cos_add ((d + n) * x)]
    ring

/-- Sums of sines are not far below zero. -/
theorem sum_sin_bound {d x : ℝ} (hd : 0 ≤ d) (hd1 : d ≤ 1) (hx : 0 < x) (hx1 : x ≤ Real.pi) (n : ℕ) :
    -(5 / 28 * x) ≤ ∑ j ∈ Finset.range n, Real.sin ((d + j) * x) := by
  have hpi := Real.pi_pos
  have hsin : 0 < Real.sin (x / 2) := Real.sin_pos_of_pos_of_lt_pi (by linarith) (by linarith)
  have e := sum_sin d x n
  have h1 : Real.cos (x / 2) ≤ Real.cos ((d - 1 / 2) * x) := by
    rw [← Real.cos_abs ((d - 1 / 2) * x)]
    refine Real.cos_le_cos_of_nonneg_of_le_pi (abs_nonneg _) (by linarith) ?_
    rw [abs_le]
    constructor <;> nlinarith
  have h2 := Real.cos_le_one ((d + n - 1 / 2) * x)
  have h3 : Real.cos (x / 2) = 1 - 2 * Real.sin (x / 4) ^ 2 := by
    rw [show x / 2 = 2 * (x / 4) by ring, Real.cos_two_mul, Real.cos_sq']; ring
  have h4 : Real.sin (x / 2) = 2 * Real.sin (x / 4) * Real.cos (x / 4) := by
    rw [show x / 2 = 2 * (x / 4) by ring, Real.sin_two_mul]
  have s0 : 0 < Real.sin (x / 4) := Real.sin_pos_of_pos_of_lt_pi (by linarith) (by linarith)
  have s1 : Real.sin (x / 4) ≤ x / 4 := Real.sin_le (by linarith)
  have c0 : (7 / 10 : ℝ) ≤ Real.cos (x / 4) := by
    have : Real.cos (Real.pi / 4) ≤ Real.cos (x / 4) :=
      Real.cos_le_cos_of_nonneg_of_le_pi (by linarith) (by linarith) (by linarith)
    rw [Real.cos_pi_div_four] at this
    have : (7 / 5 : ℝ) ≤ √2 := Real.le_sqrt_of_sq_le (by norm_num)
    linarith
  set S := ∑ j ∈ Finset.range n, Real.sin ((d + j) * x)
  have h5 : -(2 * Real.sin (x / 4) ^ 2) ≤ 2 * Real.sin (x / 2) * S := by rw [e]; linarith
  by_contra hlt
  have hlt := not_le.1 hlt
  have h6 : 2 * Real.sin (x / 2) * S < 2 * Real.sin (x / 2) * -(5 / 28 * x) :=
    mul_lt_mul_of_pos_left hlt (by linarith)
  rw [h4] at h5 h6
  have h7 : 2 * Real.sin (x / 4) * (2 * Real.cos (x / 4) * (5 / 28 * x)) < 2 * Real.sin (x / 4) * Real.sin (x / 4) := by
    nlinarith
  have h8 := lt_of_mul_lt_mul_left h7 (by linarith)
  nlinarith

theorem sinc_anti {a b : ℝ} (ha : 0 ≤ a) (hab : a ≤ b) (hb : b ≤ 1) : Kernel.sinc b ≤ Kernel.sinc a := by
  have hpi := Real.pi_pos
  rcases eq_or_lt_of_le ha with h0 | ha'
  · rw [← h0, sinc_zero']
    unfold Kernel.sinc
    dsimp only
    split
    · rename_i h
      have hb' : 0 < b * Real.pi := by
        rcases lt_or_ge 0 (b * Real.pi) with h' | h'
        · exact h'
        · have : b * Real.pi = 0 := le_antisymm h' (mul_nonneg (by linarith) hpi.le)
          rw [this, abs_zero] at h; norm_num at h
      rw [div_le_one hb']
      exact Real.sin_le hb'.le
    · exact le_rfl
  · have pa : 0 < a * Real.pi := by positivity
    have pb : 0 < b * Real.pi := mul_pos (by linarith) hpi
    have hle : a * Real.pi ≤ b * Real.pi := by nlinarith
    unfold Kernel.sinc
    dsimp only
    rw [abs_of_pos pa, abs_of_pos pb]
    split <;> rename_i h1 <;> split <;> rename_i h2
    · have hc := strictConcaveOn_sin_Icc.concaveOn
      have m0 : (0 : ℝ) ∈ Set.Icc 0 Real.pi := ⟨le_rfl, hpi.le⟩
      have m1 : b * Real.pi ∈ Set.Icc 0 Real.pi := ⟨pb.le, by nlinarith⟩
      have c0 : 0 ≤ 1 - (a * Real.pi) / (b * Real.pi) := by rw [sub_nonneg, div_le_one pb]; exact hle
      have c1 : 0 ≤ (a * Real.pi) / (b * Real.pi) := by positivity
      have := hc.2 m0 m1 c0 c1 (by ring)
      simp only [smul_eq_mul, Real.sin_zero, mul_zero, zero_add] at this
      rw [div_mul_cancel₀ _ pb.ne'] at this
      rw [div_le_div_iff₀ pb pa]
      rw [div_mul_eq_mul_div, div_le_iff₀ pb] at this
      linarith
    · rw [div_le_one pb]; exact Real.sin_le pb.le
    · linarith
    · exact le_rfl

theorem sinc_nonneg_one {b : ℝ} (h0 : 0 ≤ b) (hb : b ≤ 1) : 0 ≤ Kernel.sinc b := by
  rcases hb.lt_or_eq with h | h
  · exact (sinc_pos (by rw [abs_of_nonneg h0]; exact h)).le
  · have := sinc_int (n := 1) one_ne_zero
    rw [Int.cast_one] at this
    rw [h, this]

/-- The window of the Lanczos kernel. -/
noncomputable def lanczosWindow (L : Int) (s : ℝ) : ℝ :=
  if s ≤ (L : ℝ) then Kernel.sinc (s / (L : ℝ)) else 0

theorem lanczosWindow_nonneg {L : Int} (hL : 1 ≤ L) {s : ℝ} (hs : 0 ≤ s) : 0 ≤ lanczosWindow L s := by
  have hL' : (1 : ℝ) ≤ (L : ℝ) := by exact_mod_cast hL
  unfold lanczosWindow
  split <;> rename_i h
  · exact sinc_nonneg_one (by positivity) (by rw [div_le_one (by linarith)]; exact h)
  · exact le_rfl

theorem lanczosWindow_anti {L : Int} (hL : 1 ≤ L) {a b : ℝ} (ha : 0 ≤ a) (hab : a ≤ b) :
    lanczosWindow L b ≤ lanczosWindow L a := by
  have hL' : (1 : ℝ) ≤ (L : ℝ) := by exact_mod_cast hL
  rcases le_or_gt b (L : ℝ) with h | h
  · unfold lanczosWindow
    rw [if_pos h, if_pos (hab.trans h)]
    exact sinc_anti (by positivity) (by gcongr) (by rw [div_le_one (by linarith)]; exact h)
  · have : lanczosWindow L b = 0 := by unfold lanczosWindow; rw [if_neg (not_le.2 h)]
    rw [this]
    exact lanczosWindow_nonneg hL ha

theorem lanczos_ge {L : Int} (hL : 1 ≤ L) {s : ℝ} (hs : 0 < s) :
    Real.sin (s * Real.pi) * (lanczosWindow L s / (s * Real.pi)) ≤ lanczos s L := by
  have hw := lanczosWindow_nonneg hL hs.le
  have hpi := Real.pi_pos
  have hsp : 0 < s * Real.pi := by positivity
  have e : Real.sin (s * Real.pi) * (lanczosWindow L s / (s * Real.pi)) =
      Real.sin (s * Real.pi) / (s * Real.pi) * lanczosWindow L s := by ring
  have hsinc : Real.sin (s * Real.pi) / (s * Real.pi) ≤ Kernel.sinc s := by
    unfold Kernel.sinc
    dsimp only
    split
    · exact le_rfl
    · rw [div_le_one hsp]; exact Real.sin_le hsp.le
  rw [e]
  unfold lanczos
  rw [abs_of_pos hs]
  unfold lanczosWindow at hw ⊢
  split <;> rename_i h
  · rw [if_pos h] at hw
    exact mul_le_mul_of_nonneg_right hsinc hw
  · rw [mul_zero]

/-- One side of the sum, from `abel_bound`. -/
theorem lanczos_side {L : Int} (hL : 1 ≤ L) {d t : ℝ} (hd : 0 < d) (hd1 : d ≤ 1) (ht : 0 < t) (ht1 : t ≤ 1) (n : ℕ) :
    lanczosWindow L (d * t) / ((d + 1) * (t * Real.pi)) * (Real.sin (d * (t * Real.pi)) / d - 5 / 28 * (t * Real.pi)) ≤
      ∑ j ∈ Finset.range (n + 1), lanczos ((d + j) * t) L := by
  have hpi := Real.pi_pos
  set x := t * Real.pi with hx
  have x0 : 0 < x := by positivity
  have x1 : x ≤ Real.pi := by nlinarith
  set g : ℕ → ℝ := fun j => lanczosWindow L ((d + j) * t) / ((d + j) * x) with hg
  have pos : ∀ j : ℕ, 0 < d + j := fun j => by positivity
  have anti : ∀ j, g (j + 1) ≤ g j := by
    intro j
    simp only [hg]
    have hd' : d + (j : ℝ) ≤ d + ((j + 1 : ℕ) : ℝ) := by push_cast; linarith
    refine div_le_div₀ (lanczosWindow_nonneg hL (by positivity)) (lanczosWindow_anti hL (by positivity) ?_)
      (by have := pos j; positivity) ?_
    · exact mul_le_mul_of_nonneg_right hd' ht.le
    · exact mul_le_mul_of_nonneg_right hd' x0.le
  have nonneg : ∀ j, 0 ≤ g j := fun j => by
    have := pos j
    exact div_nonneg (lanczosWindow_nonneg hL (by positivity)) (by positivity)
  have hS := fun n : ℕ => sum_sin_bound hd.le hd1 x0 x1 (n + 1)
  have main := abel_bound (fun j => Real.sin ((d + j) * x)) g (5 / 28 * x) anti nonneg hS n
  refine le_trans ?_ (main.trans (Finset.sum_le_sum fun j _ => ?_))
  · have hw0 := lanczosWindow_nonneg hL (s := d * t) (by positivity)
    have hg0 : g 0 = lanczosWindow L (d * t) / (d * x) := by simp [hg]
    have hg1 : g 1 ≤ lanczosWindow L (d * t) / ((d + 1) * x) := by
      simp only [hg, Nat.cast_one]
      have hw : lanczosWindow L ((d + 1) * t) ≤ lanczosWindow L (d * t) :=
        lanczosWindow_anti hL (by positivity) (by nlinarith)
      gcongr
    have s0 : 0 ≤ Real.sin (d * x) := Real.sin_nonneg_of_nonneg_of_le_pi (by positivity) (by nlinarith)
    simp only [Nat.cast_zero, add_zero]
    have a1 : (lanczosWindow L (d * t) / (d * x) - lanczosWindow L (d * t) / ((d + 1) * x)) * Real.sin (d * x) ≤
        (g 0 - g 1) * Real.sin (d * x) := by
      rw [hg0]
      exact mul_le_mul_of_nonneg_right (by linarith) s0
    have a2 : g 1 * (5 / 28 * x) ≤ lanczosWindow L (d * t) / ((d + 1) * x) * (5 / 28 * x) :=
      mul_le_mul_of_nonneg_right hg1 (by positivity)
    have a3 : (lanczosWindow L (d * t) / (d * x) - lanczosWindow L (d * t) / ((d + 1) * x)) * Real.sin (d * x) =
        lanczosWindow L (d * t) / ((d + 1) * x) * (Real.sin (d * x) / d) := by
      field_simp
      ring
    rw [mul_sub, ← a3]
    linarith
  · have h := lanczos_ge hL (s := (d + j) * t) (by have := pos j; positivity)
    rw [show (d + (j : ℝ)) * t * Real.pi = (d + j) * x by rw [hx]; ring] at h
    exact h

/-- The side that has the nearest sample. -/
theorem lanczos_near {L : Int} (hL : 1 ≤ L) {d t : ℝ} (hd : 0 < d) (hd1 : d ≤ 1 / 2) (ht : 0 < t) (ht1 : t ≤ 1)
    (n : ℕ) : 3 / 10 * lanczosWindow L (d * t) ≤ ∑ j ∈ Finset.range (n + 1), lanczos ((d + j) * t) L := by
  refine le_trans ?_ (lanczos_side hL hd (by linarith) ht ht1 n)
  have hpi := Real.pi_pos
  have hpi2 := Real.pi_lt_d2
  set x := t * Real.pi with hx
  have x0 : 0 < x := by positivity
  have hw0 := lanczosWindow_nonneg hL (s := d * t) (by positivity)
  have j1 : 63 / 100 * x ≤ Real.sin (d * x) / d := by
    have h := Real.mul_le_sin (x := d * x) (by positivity) (by nlinarith)
    rw [le_div_iff₀ hd]
    have : (63 / 100 : ℝ) ≤ 2 / Real.pi := by rw [le_div_iff₀ hpi]; linarith
    nlinarith [mul_le_mul_of_nonneg_right this (show 0 ≤ d * x by positivity)]
  calc 3 / 10 * lanczosWindow L (d * t) ≤ lanczosWindow L (d * t) / ((d + 1) * x) * (45 / 100 * x) := by
        have e : lanczosWindow L (d * t) / ((d + 1) * x) * (45 / 100 * x) =
          lanczosWindow L (d * t) * (45 / 100 / (d + 1)) := by field_simp
        rw [e, mul_comm]
        refine mul_le_mul_of_nonneg_left ?_ hw0
        rw [le_div_iff₀ (by linarith)]
        linarith
    _ ≤ _ := mul_le_mul_of_nonneg_left (by linarith) (by positivity)

/-- The other side. -/
theorem lanczos_far {L : Int} (hL : 1 ≤ L) {d t : ℝ} (hd : 1 / 2 ≤ d) (hd1 : d ≤ 1) (ht : 0 < t) (ht1 : t ≤ 1)
    (n : ℕ) : -(3 / 25) * lanczosWindow L (d * t) ≤ ∑ j ∈ Finset.range n, lanczos ((d + j) * t) L := by
  have hw0 := lanczosWindow_nonneg hL (s := d * t) (by positivity)
  cases n with
  | zero => rw [Finset.sum_range_zero]; nlinarith
  | succ n =>
    have d0 : 0 < d := by linarith
    refine le_trans ?_ (lanczos_side hL d0 hd1 ht ht1 n)
    have hpi := Real.pi_pos
    set x := t * Real.pi with hx
    have x0 : 0 < x := by positivity
    have s0 : 0 ≤ Real.sin (d * x) / d :=
      div_nonneg (Real.sin_nonneg_of_nonneg_of_le_pi (by positivity) (by nlinarith)) d0.le
    calc -(3 / 25) * lanczosWindow L (d * t) ≤ lanczosWindow L (d * t) / ((d + 1) * x) * (-(5 / 28 * x)) := by
          have e : lanczosWindow L (d * t) / ((d + 1) * x) * (-(5 / 28 * x)) =
            lanczosWindow L (d * t) * (-(5 / 28 / (d + 1))) := by field_simp
          rw [e, mul_comm]
          refine mul_le_mul_of_nonneg_left ?_ hw0
          rw [neg_le_neg_iff, div_le_iff₀ (by linarith)]
          linarith
      _ ≤ _ := mul_le_mul_of_nonneg_left (by linarith) (by positivity)

/-- Both sides. -/
theorem lanczos_sides {L : Int} (hL : 1 ≤ L) {d t : ℝ} (hd : 0 ≤ d) (hd1 : d ≤ 1 / 2) (ht : 0 < t) (ht1 : t ≤ 1)
    (n m : ℕ) : 0 < ∑ j ∈ Finset.range (n + 1), lanczos ((d + j) * t) L +
      ∑ j ∈ Finset.range m, lanczos ((1 - d + j) * t) L := by
  have hL' : (1 : ℝ) ≤ (L : ℝ) := by exact_mod_cast hL
  have f := lanczos_far hL (d := 1 - d) (by linarith) (by linarith) ht ht1 m
  have w : lanczosWindow L ((1 - d) * t) ≤ lanczosWindow L (d * t) :=
    lanczosWindow_anti hL (by positivity) (by nlinarith)
  rcases hd.lt_or_eq with h | h
  · have a := lanczos_near hL h hd1 ht ht1 n
    have p : 0 < lanczosWindow L (d * t) := by
      unfold lanczosWindow
      rw [if_pos (by nlinarith)]
      refine sinc_pos ?_
      rw [abs_of_nonneg (by positivity), div_lt_one (by linarith)]
      nlinarith
    linarith
  · have b := lanczos_far hL (d := 1) (by norm_num) le_rfl ht ht1 n
    have one : lanczos 0 L = 1 := (C62_lanczos L hL).2.2.1.1
    have w1 : ∀ s, 0 ≤ s → lanczosWindow L s ≤ 1 := by
      intro s hs
      have := lanczosWindow_anti hL le_rfl hs
      have e : lanczosWindow L 0 = 1 := by
        unfold lanczosWindow
        rw [if_pos (by linarith), zero_div, sinc_zero']
      linarith
    have w2 := w1 ((1 - d) * t) (mul_nonneg (by linarith) ht.le)
    have w3 := w1 (1 * t) (by linarith)
    rw [Finset.sum_range_succ', ← h]
    rw [← h] at f w2
    simp only [Nat.cast_zero, add_zero, zero_mul, one]
    have e : ∑ j ∈ Finset.range n, lanczos ((0 + ((j + 1 : ℕ) : ℝ)) * t) L =
        ∑ j ∈ Finset.range n, lanczos ((1 + j) * t) L := by
      refine Finset.sum_congr rfl fun j _ => ?_
      congr 2
      push_cast
      ring
    rw [e]
    have hw1 := lanczosWindow_nonneg hL (s := 1 * t) (by linarith)
    simp only [sub_zero, one_mul] at f w2 b w3 ⊢
    linarith

/-- The sum of the values at consecutive samples, one of which is within half a sample of the centre, is
positive, however much the kernel is stretched. -/
theorem lanczos_sum_pos {L : Int} (hL : 1 ≤ L) {t p : ℝ} (ht : 0 < t) (ht1 : t ≤ 1)
    {a b i0 : ℤ} (ha : a ≤ i0) (hb : i0 < b) (hp : |(i0 : ℝ) - p| ≤ 1 / 2) :
    0 < ∑ n ∈ Finset.Ico a b, lanczos (((n : ℝ) - p) * t) L := by
  have even : ∀ s : ℝ, lanczos (-s) L = lanczos s L := (C62_lanczos L hL).1
  obtain ⟨p1, p2⟩ := abs_le.1 hp
  rcases le_total p i0 with h | h
  · -- the nearest sample is on the right
    have hsplit : Finset.Ico a b = Finset.Ico a i0 ∪ Finset.Ico (i0 - 1 + 1) b := by
      ext n; simp only [Finset.mem_Ico, Finset.mem_union]; omega
    rw [hsplit, Finset.sum_union (by
      rw [Finset.disjoint_left]; intro n; simp only [Finset.mem_Ico]; omega), sum_right, sum_left]
    obtain ⟨n, hn⟩ : ∃ n : ℕ, (b - (i0 - 1) - 1).toNat = n + 1 := ⟨(b - i0 - 1).toNat, by omega⟩
    have main := lanczos_sides hL (d := i0 - p) (by linarith) (by linarith) ht ht1 n (i0 - a).toNat
    rw [hn, add_comm]
    refine lt_of_lt_of_eq main ?_
    congr 1
    · refine Finset.sum_congr rfl fun j _ => ?_
      congr 2
      push_cast
      ring
    · refine Finset.sum_congr rfl fun j _ => ?_
      rw [← even]
      congr 1
      push_cast
      ring
  · have hsplit : Finset.Ico a b = Finset.Ico a (i0 + 1) ∪ Finset.Ico (i0 + 1) b := by
      ext n; simp only [Finset.mem_Ico, Finset.mem_union]; omega
    rw [hsplit, Finset.sum_union (by
      rw [Finset.disjoint_left]; intro n; simp only [Finset.mem_Ico]; omega), sum_right, sum_left]
    obtain ⟨n, hn⟩ : ∃ n : ℕ, (i0 + 1 - a).toNat = n + 1 := ⟨(i0 - a).toNat, by omega⟩
    have main := lanczos_sides hL (d := p - i0) (by linarith) (by linarith) ht ht1 n (b - i0 - 1).toNat
    rw [hn]
    refine lt_of_lt_of_eq main ?_
    congr 1
    · refine Finset.sum_congr rfl fun j _ => ?_
      rw [← even]
      congr 1
      push_cast
      ring
    · refine Finset.sum_congr rfl fun j _ => ?_
      congr 2
      push_cast
      ring

end Nda
