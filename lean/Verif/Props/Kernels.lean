import Verif.Model.Kernels
import Verif.Spec.Kernels
import Mathlib.Algebra.Order.Floor.Ring
import Mathlib.Tactic.Ring
import Mathlib.Tactic.FieldSimp
import Mathlib.Tactic.Linarith
import Mathlib.Tactic.NormNum
import Mathlib.Tactic.Positivity
/-
C62: the reconstruction kernels.
-/
namespace Nda
open Spec Kernel

section
variable {K : Type} [Field K] [LinearOrder K] [IsStrictOrderedRing K]

/-- A sum over samples has at most four terms, if the kernel vanishes at distance two. -/
theorem four_taps [FloorRing K] {k : K → K} {R : K} (hR : R ≤ 2) (hk : VanishesFrom k R) (f : ℤ → K) (s : K)
    (S : Finset ℤ) (hS : ∀ n : ℤ, |s - (n : K)| < R → n ∈ S) :
    ∃ (m : ℤ) (t : K), 0 ≤ t ∧ t < 1 ∧ s = m + t ∧
      ∑ n ∈ S, f n * k (s - (n : K)) =
        f (m - 1) * k (t + 1) + f m * k t + f (m + 1) * k (t - 1) + f (m + 2) * k (t - 2) := by
  refine ⟨⌊s⌋, Int.fract s, Int.fract_nonneg s, Int.fract_lt_one s, (Int.floor_add_fract s).symm, ?_⟩
  have hs : s = (⌊s⌋ : K) + Int.fract s := (Int.floor_add_fract s).symm
  set m := ⌊s⌋
  set t := Int.fract s
  have ht0 : 0 ≤ t := Int.fract_nonneg s
  have ht1 : t < 1 := Int.fract_lt_one s
  have h1 : ∑ n ∈ S, f n * k (s - (n : K)) =
      ∑ n ∈ ({m - 1, m, m + 1, m + 2} : Finset ℤ), f n * k (s - (n : K)) := by
    have hzero : ∀ n : ℤ, (n ∉ S ∨ n ∉ ({m - 1, m, m + 1, m + 2} : Finset ℤ)) → f n * k (s - (n : K)) = 0 := by
      intro n hn
      have : R ≤ |s - (n : K)| := by
        rcases hn with hn | hn
        · by_contra h
          exact hn (hS n (not_le.1 h))
        · simp only [Finset.mem_insert, Finset.mem_singleton, not_or] at hn
          obtain ⟨a, b, c, d⟩ := hn
          refine hR.trans ?_
          rcases lt_or_ge n m with h | h
          · have : (n : K) ≤ m - 2 := by exact_mod_cast (show n ≤ m - 2 by omega)
            rw [le_abs]; left; linarith
          · have : (m : K) + 3 ≤ n := by exact_mod_cast (show m + 3 ≤ n by omega)
            rw [le_abs]; right; linarith
      rw [hk _ this, mul_zero]
    exact (Finset.sum_subset (Finset.subset_union_left (s₂ := ({m - 1, m, m + 1, m + 2} : Finset ℤ)))
      (fun n _ hn => hzero n (Or.inl hn))).trans
      (Finset.sum_subset (Finset.subset_union_right (s₁ := S)) (fun n _ hn => hzero n (Or.inr hn))).symm
  rw [h1, Finset.sum_insert (by simp; omega), Finset.sum_insert (by simp), Finset.sum_insert (by simp),
    Finset.sum_singleton]
  have e1 : s - ((m - 1 : ℤ) : K) = t + 1 := by push_cast; linarith
  have e2 : s - (m : K) = t := by linarith
  have e3 : s - ((m + 1 : ℤ) : K) = t - 1 := by push_cast; linarith
  have e4 : s - ((m + 2 : ℤ) : K) = t - 2 := by push_cast; linarith
  rw [e1, e2, e3, e4]
  ring

/-! ### box -/

/-- C62: `box` is symmetric, zero beyond one half, and interpolating. -/
theorem C62_box : Symmetric (box : K → K) ∧ (∀ s : K, 1 / 2 < |s| → box s = 0) ∧
    Interpolating (box : K → K) := by
  refine ⟨fun s => ?_, fun s hs => ?_, ?_, fun n hn => ?_⟩
  · unfold box; rw [abs_neg]
  · unfold box; rw [if_neg (not_le.2 hs)]
  · unfold box; rw [abs_zero, if_pos (by norm_num)]
  · unfold box
    rw [if_neg]
    have : (1 : K) ≤ |(n : K)| := by exact_mod_cast Int.one_le_abs hn
    intro h
    linarith

/-- C62: `box` does not reconstruct constants: halfway between two samples it takes both fully (the values
are divided by their sum later). -/
theorem C62_box_counterexample : ∑ n ∈ ({0, 1} : Finset ℤ), box ((1 / 2 : K) - n) = 2 := by
  rw [Finset.sum_insert (by simp), Finset.sum_singleton]
  unfold box
  rw [if_pos, if_pos]
  · norm_num
  · rw [abs_le]; constructor <;> norm_num
  · rw [abs_le]; constructor <;> norm_num

/-- C62: everywhere else it does. -/
theorem C62_box_constants [FloorRing K] (c s : K) (hs : ∀ n : ℤ, s ≠ n + 1 / 2) (S : Finset ℤ)
    (hS : ∀ n : ℤ, |s - (n : K)| < 1 / 2 → n ∈ S) : ∑ n ∈ S, c * box (s - (n : K)) = c := by
  have hr : |s - (round s : K)| ≤ 1 / 2 := abs_sub_round s
  have hne : |s - (round s : K)| ≠ 1 / 2 := by
    intro h
    rcases abs_choice (s - (round s : K)) with h' | h'
    · exact hs (round s) (by linarith)
    · exact hs (round s - 1) (by push_cast; linarith)
  have hlt := lt_of_le_of_ne hr hne
  rw [Finset.sum_eq_single_of_mem _ (hS _ hlt)]
  · unfold box; rw [if_pos hr, mul_one]
  · intro n _ hn
    unfold box
    rw [if_neg, mul_zero]
    intro h
    have h1 : (1 : K) ≤ |((n - round s : ℤ) : K)| := by exact_mod_cast Int.one_le_abs (sub_ne_zero.2 hn)
    have h2 : |((n - round s : ℤ) : K)| ≤ |s - (round s : K)| + |s - (n : K)| := by
      have := abs_sub (s - (round s : K)) (s - (n : K))
      have e : ((n - round s : ℤ) : K) = (s - (round s : K)) - (s - (n : K)) := by push_cast; ring
      rw [e]; exact this
    linarith

/-! ### linear -/

theorem linear_eq {s : K} (h : |s| ≤ 1) : linear s = 1 - |s| := by
  unfold linear
  split
  · rfl
  · linarith

theorem linear_far {s : K} (h : 1 ≤ |s|) : linear s = 0 := by
  unfold linear
  rw [if_neg (by linarith)]

/-- C62: `linear` is symmetric, zero from distance one on, positive before, at most one, and interpolating. -/
theorem C62_linear : Symmetric (linear : K → K) ∧ VanishesFrom (linear : K → K) 1 ∧
    (∀ s : K, |s| < 1 → 0 < linear s) ∧ (∀ s : K, 0 ≤ linear s ∧ linear s ≤ 1) ∧
    Interpolating (linear : K → K) := by
  refine ⟨fun s => ?_, fun s hs => linear_far hs, fun s hs => ?_, fun s => ?_, ?_, fun n hn => ?_⟩
  · unfold linear; rw [abs_neg]
  · rw [linear_eq hs.le]; linarith
  · unfold linear
    have := abs_nonneg s
    split <;> constructor <;> linarith
  · rw [linear_eq (by simp)]; simp
  · exact linear_far (by exact_mod_cast Int.one_le_abs hn)

/-- C62: `linear` reconstructs all linear functions. -/
theorem C62_linear_reconstructs [FloorRing K] (a b : K) : Reconstructs (linear : K → K) 1 fun x => a + b * x := by
  intro s S hS
  obtain ⟨m, t, h0, h1, rfl, e⟩ := four_taps (by norm_num) (C62_linear (K := K)).2.1 (fun n => a + b * n) s S hS
  rw [e, linear_far (s := t + 1) (by rw [le_abs]; left; linarith), linear_eq (s := t) (by rw [abs_le]; constructor <;> linarith),
    linear_eq (s := t - 1) (by rw [abs_le]; constructor <;> linarith), linear_far (s := t - 2) (by rw [le_abs]; right; linarith),
    abs_of_nonneg h0, abs_of_neg (by linarith)]
  push_cast
  ring

/-! ### quadratic_family -/

omit [IsStrictOrderedRing K] in
theorem quadratic_near {s r : K} (h : |s| < 1 / 2) : quadraticFamily s r = -2 * r * s ^ 2 + 1 / 2 * (r + 1) := by
  unfold quadraticFamily
  rw [if_pos h, abs_mul_abs_self, pow_two]

theorem quadratic_mid {s r : K} (h : 1 / 2 ≤ |s|) (h' : |s| ≤ 3 / 2) :
    quadraticFamily s r = r * s ^ 2 + (-2 * r - 1 / 2) * |s| + 3 / 4 * (r + 1) := by
  unfold quadraticFamily
  rw [if_neg (not_lt.2 h), abs_mul_abs_self, pow_two]
  split
  · rfl
  · have : |s| = 3 / 2 := by linarith
    rw [← abs_mul_abs_self s, this]
    ring

theorem quadratic_far {s r : K} (h : 3 / 2 ≤ |s|) : quadraticFamily s r = 0 := by
  unfold quadraticFamily
  rw [if_neg (by linarith), if_neg (not_lt.2 h)]

omit [IsStrictOrderedRing K] in
theorem quadratic_even (r : K) : Symmetric fun s : K => quadraticFamily s r := by
  intro s
  simp only [quadraticFamily, abs_neg]

/-- C62: for every `r`, `quadratic_family` reconstructs all linear functions, from the three nearest samples. -/
theorem C62_quadratic_reconstructs [FloorRing K] (r a b : K) :
    Reconstructs (fun s : K => quadraticFamily s r) (3 / 2) fun x => a + b * x := by
  intro s S hS
  obtain ⟨m, t, h0, h1, rfl, e⟩ := four_taps (k := fun s : K => quadraticFamily s r) (R := 3 / 2) (by norm_num)
    (fun s hs => quadratic_far hs) (fun n => a + b * n) s S hS
  rw [e]
  have a1 : |t + 1| = t + 1 := abs_of_nonneg (by linarith)
  have a2 : |t| = t := abs_of_nonneg h0
  have a3 : |t - 1| = 1 - t := by rw [abs_of_neg (by linarith)]; ring
  have a4 : |t - 2| = 2 - t := by rw [abs_of_neg (by linarith)]; ring
  push_cast
  rcases lt_trichotomy t (1 / 2) with h | h | h
  · rw [quadratic_mid (s := t + 1) (by rw [a1]; linarith) (by rw [a1]; linarith), quadratic_near (s := t) (by rw [a2]; exact h),
      quadratic_mid (s := t - 1) (by rw [a3]; linarith) (by rw [a3]; linarith), quadratic_far (s := t - 2) (by rw [a4]; linarith),
      a1, a3]
    ring
  · rw [quadratic_far (s := t + 1) (by rw [a1]; linarith), quadratic_mid (s := t) (by rw [a2]; linarith) (by rw [a2]; linarith),
      quadratic_mid (s := t - 1) (by rw [a3]; linarith) (by rw [a3]; linarith), quadratic_far (s := t - 2) (by rw [a4]; linarith),
      a2, a3, h]
    ring
  · rw [quadratic_far (s := t + 1) (by rw [a1]; linarith), quadratic_mid (s := t) (by rw [a2]; linarith) (by rw [a2]; linarith),
      quadratic_near (s := t - 1) (by rw [a3]; linarith), quadratic_mid (s := t - 2) (by rw [a4]; linarith) (by rw [a4]; linarith),
      a2, a4]
    ring

/-- C62: `interpolating_quadratic` is symmetric, zero from distance 3/2 on, and interpolating. -/
theorem C62_interpolating_quadratic : Symmetric (interpolatingQuadratic : K → K) ∧
    VanishesFrom (interpolatingQuadratic : K → K) (3 / 2) ∧ Interpolating (interpolatingQuadratic : K → K) := by
  refine ⟨quadratic_even 1, fun s hs => quadratic_far hs, ?_, fun n hn => ?_⟩
  · unfold interpolatingQuadratic
    rw [quadratic_near (by rw [abs_zero]; norm_num)]
    norm_num
  · unfold interpolatingQuadratic
    have h1 : (1 : K) ≤ |(n : K)| := by exact_mod_cast Int.one_le_abs hn
    rcases le_or_gt (3 / 2) |(n : K)| with h | h
    · exact quadratic_far h
    · rw [quadratic_mid (by linarith) h.le]
      have hi : |n| < 2 := by
        have : |(n : K)| < 2 := by linarith
        exact_mod_cast this
      have h2 : |n| = 1 := by have := Int.one_le_abs hn; omega
      have h3 : |(n : K)| = 1 := by exact_mod_cast h2
      rw [h3, ← sq_abs, h3]
      norm_num

/-- C62: `quadratic_bspline` is symmetric, zero from distance 3/2 on, positive before, and at most 3/4 (so it
is not interpolating). -/
theorem C62_quadratic_bspline : Symmetric (quadraticBspline : K → K) ∧
    VanishesFrom (quadraticBspline : K → K) (3 / 2) ∧
    (∀ s : K, |s| < 3 / 2 → 0 < quadraticBspline s) ∧
    (∀ s : K, quadraticBspline s ≤ 3 / 4) ∧ quadraticBspline (0 : K) = 3 / 4 := by
  have pos : ∀ s : K, |s| < 3 / 2 → 0 < quadraticBspline s ∧ quadraticBspline s ≤ 3 / 4 := by
    intro s hs
    unfold quadraticBspline
    have h0 := abs_nonneg s
    rcases lt_or_ge |s| (1 / 2) with h | h
    · rw [quadratic_near h, ← sq_abs]
      constructor <;> nlinarith
    · rw [quadratic_mid h hs.le, ← sq_abs]
      constructor <;> nlinarith [mul_pos (sub_pos.2 hs) (sub_pos.2 hs)]
  refine ⟨quadratic_even _, fun s hs => quadratic_far hs, fun s hs => (pos s hs).1, fun s => ?_, ?_⟩
  · rcases lt_or_ge |s| (3 / 2) with h | h
    · exact (pos s h).2
    · unfold quadraticBspline; rw [quadratic_far h]; norm_num
  · unfold quadraticBspline
    rw [quadratic_near (by rw [abs_zero]; norm_num)]
    norm_num

/-! ### cubic_family -/

omit [IsStrictOrderedRing K] in
theorem cubic_near {s B C : K} (h : |s| ≤ 1) :
    cubicFamily s B C = (2 - B * (3 / 2) - C) * |s| ^ 3 + (-3 + 2 * B + C) * |s| ^ 2 + (1 - B / 3) := by
  unfold cubicFamily
  rw [if_pos h]
  ring

theorem cubic_mid {s B C : K} (h : 1 ≤ |s|) (h' : |s| ≤ 2) :
    cubicFamily s B C = (-B / 6 - C) * |s| ^ 3 + (B + 5 * C) * |s| ^ 2 + (-2 * B - 8 * C) * |s| +
      (B * 4 / 3 + 4 * C) := by
  unfold cubicFamily
  dsimp only
  split
  · have : |s| = 1 := by linarith
    rw [this]
    ring
  · ring

theorem cubic_far {s B C : K} (h : 2 ≤ |s|) : cubicFamily s B C = 0 := by
  rcases h.lt_or_eq with h | h
  · unfold cubicFamily
    rw [if_neg (by linarith), if_neg (not_le.2 h)]
  · rw [cubic_mid (by linarith) h.ge, ← h]
    ring

omit [IsStrictOrderedRing K] in
theorem cubic_even (B C : K) : Symmetric fun s : K => cubicFamily s B C := by
  intro s
  simp only [cubicFamily, abs_neg]

/-- The four values of the cubic kernels at distances `t + 1`, `t`, `1 - t`, `2 - t`. -/
theorem cubic_taps (B C : K) {t : K} (h0 : 0 ≤ t) (h1 : t < 1) :
    cubicFamily (t + 1) B C = (-B / 6 - C) * (t + 1) ^ 3 + (B + 5 * C) * (t + 1) ^ 2 +
      (-2 * B - 8 * C) * (t + 1) + (B * 4 / 3 + 4 * C) ∧
    cubicFamily t B C = (2 - B * (3 / 2) - C) * t ^ 3 + (-3 + 2 * B + C) * t ^ 2 + (1 - B / 3) ∧
    cubicFamily (t - 1) B C = (2 - B * (3 / 2) - C) * (1 - t) ^ 3 + (-3 + 2 * B + C) * (1 - t) ^ 2 + (1 - B / 3) ∧
    cubicFamily (t - 2) B C = (-B / 6 - C) * (2 - t) ^ 3 + (B + 5 * C) * (2 - t) ^ 2 +
      (-2 * B - 8 * C) * (2 - t) + (B * 4 / 3 + 4 * C) := by
  have a1 : |t + 1| = t + 1 := abs_of_nonneg (by linarith)
  have a2 : |t| = t := abs_of_nonneg h0
  have a3 : |t - 1| = 1 - t := by rw [abs_of_neg (by linarith)]; ring
  have a4 : |t - 2| = 2 - t := by rw [abs_of_neg (by linarith)]; ring
  refine ⟨?_, ?_, ?_, ?_⟩
  · rw [cubic_mid (by rw [a1]; linarith) (by rw [a1]; linarith), a1]
  · rw [cubic_near (by rw [a2]; exact h1.le), a2]
  · rw [cubic_near (by rw [a3]; linarith), a3]
  · rw [cubic_mid (by rw [a4]; linarith) (by rw [a4]; linarith), a4]

/-- C62: for every `B` and `C`, `cubic_family` reconstructs constants, from the four nearest samples. -/
theorem C62_cubic_constants [FloorRing K] (B C a : K) : Reconstructs (fun s : K => cubicFamily s B C) 2 fun _ => a := by
  intro s S hS
  obtain ⟨m, t, h0, h1, rfl, e⟩ := four_taps (k := fun s : K => cubicFamily s B C) (R := 2) (by norm_num)
    (fun s hs => cubic_far hs) (fun _ => a) s S hS
  obtain ⟨b1, b2, b3, b4⟩ := cubic_taps B C h0 h1
  rw [e, b1, b2, b3, b4]
  ring

/-- C62: it reconstructs all linear functions exactly if `B + 2 C = 1`. -/
theorem C62_cubic_linear_iff [FloorRing K] (B C : K) :
    (∀ a b, Reconstructs (fun s : K => cubicFamily s B C) 2 fun x => a + b * x) ↔ B + 2 * C = 1 := by
  constructor
  · intro h
    have hs := h 0 1 (1 / 4) {-1, 0, 1, 2} (by
      intro n hn
      rw [abs_lt] at hn
      have h1 : (n : K) < 3 := by linarith
      have h2 : (-2 : K) < n := by linarith
      have h1 : n < 3 := by exact_mod_cast h1
      have h2 : -2 < n := by exact_mod_cast h2
      simp only [Finset.mem_insert, Finset.mem_singleton]
      omega)
    rw [Finset.sum_insert (by simp), Finset.sum_insert (by simp), Finset.sum_insert (by simp),
      Finset.sum_singleton] at hs
    obtain ⟨b1, b2, b3, b4⟩ := cubic_taps B C (t := 1 / 4) (by norm_num) (by norm_num)
    push_cast at hs
    simp only [sub_neg_eq_add, sub_zero] at hs
    rw [b1, b2, b3, b4] at hs
    linarith
  · intro h a b s S hS
    obtain ⟨m, t, h0, h1, rfl, e⟩ := four_taps (k := fun s : K => cubicFamily s B C) (R := 2) (by norm_num)
      (fun s hs => cubic_far hs) (fun n => a + b * n) s S hS
    obtain ⟨b1, b2, b3, b4⟩ := cubic_taps B C h0 h1
    rw [e, b1, b2, b3, b4, show B = 1 - 2 * C by linarith]
    push_cast
    ring

/-- C62: `interpolating_cubic` reconstructs all quadratic functions. -/
theorem C62_interpolating_cubic_reconstructs [FloorRing K] (a b c : K) :
    Reconstructs (interpolatingCubic : K → K) 2 fun x => a + b * x + c * x ^ 2 := by
  intro s S hS
  obtain ⟨m, t, h0, h1, rfl, e⟩ := four_taps (k := fun s : K => cubicFamily s 0 (1 / 2)) (R := 2) (by norm_num)
    (fun s hs => cubic_far hs) (fun n => a + b * n + c * n ^ 2) s S hS
  obtain ⟨b1, b2, b3, b4⟩ := cubic_taps 0 (1 / 2) h0 h1
  unfold interpolatingCubic
  rw [e, b1, b2, b3, b4]
  push_cast
  ring

/-- C62: `interpolating_cubic` is symmetric, zero from distance two on, and interpolating. -/
theorem C62_interpolating_cubic : Symmetric (interpolatingCubic : K → K) ∧
    VanishesFrom (interpolatingCubic : K → K) 2 ∧ Interpolating (interpolatingCubic : K → K) := by
  refine ⟨cubic_even _ _, fun s hs => cubic_far hs, ?_, fun n hn => ?_⟩
  · unfold interpolatingCubic
    rw [cubic_near (by rw [abs_zero]; norm_num)]
    norm_num
  · unfold interpolatingCubic
    have h1 : (1 : K) ≤ |(n : K)| := by exact_mod_cast Int.one_le_abs hn
    rcases le_or_gt 2 |(n : K)| with h | h
    · exact cubic_far h
    · rw [cubic_mid h1 h.le]
      have hi : |n| < 2 := by exact_mod_cast h
      have h2 : |n| = 1 := by have := Int.one_le_abs hn; omega
      have h3 : |(n : K)| = 1 := by exact_mod_cast h2
      rw [h3]
      norm_num

/-- C62: `cubic_bspline` is symmetric, zero from distance two on, positive before, and at most 2/3. -/
theorem C62_cubic_bspline : Symmetric (cubicBspline : K → K) ∧ VanishesFrom (cubicBspline : K → K) 2 ∧
    (∀ s : K, |s| < 2 → 0 < cubicBspline s) ∧ (∀ s : K, cubicBspline s ≤ 2 / 3) ∧
    cubicBspline (0 : K) = 2 / 3 := by
  have pos : ∀ s : K, |s| < 2 → 0 < cubicBspline s ∧ cubicBspline s ≤ 2 / 3 := by
    intro s hs
    unfold cubicBspline
    have h0 := abs_nonneg s
    generalize hx : |s| = x at *
    rcases le_or_gt x 1 with h | h
    · rw [cubic_near (by rw [hx]; exact h), hx]
      constructor <;> nlinarith [mul_nonneg h0 h0, mul_nonneg (mul_nonneg h0 h0) (sub_nonneg.2 h)]
    · rw [cubic_mid (by rw [hx]; exact h.le) (by rw [hx]; exact hs.le), hx]
      have e : (-1 / 6 - 0) * x ^ 3 + (1 + 5 * 0) * x ^ 2 + (-2 * 1 - 8 * 0) * x + (1 * 4 / 3 + 4 * 0) =
          (2 - x) ^ 3 / 6 := by ring
      rw [e]
      have h2 : 0 < 2 - x := by linarith
      have h3 : (2 - x) ^ 3 ≤ 1 := pow_le_one₀ h2.le (by linarith)
      constructor
      · positivity
      · linarith
  refine ⟨cubic_even _ _, fun s hs => cubic_far hs, fun s hs => (pos s hs).1, fun s => ?_, ?_⟩
  · rcases lt_or_ge |s| 2 with h | h
    · exact (pos s h).2
    · unfold cubicBspline; rw [cubic_far h]; norm_num
  · unfold cubicBspline
    rw [cubic_near (by rw [abs_zero]; norm_num)]
    norm_num

end
end Nda
