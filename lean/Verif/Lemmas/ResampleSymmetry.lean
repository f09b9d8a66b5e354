import Verif.Props.ResampleProgram
import Verif.Props.KernelsFloat
/-
Facts about weighted means for C101.
-/
namespace Nda
open Spec Kernel

theorem polynomial_symmetric {k : ℚ → ℚ} (hk : PolynomialKernel k) : Symmetric k := by
  rcases hk with rfl | rfl | rfl | rfl | rfl | rfl
  · exact C62_box.1
  · exact C62_linear.1
  · exact C62_interpolating_quadratic.1
  · exact C62_interpolating_cubic.1
  · exact C62_quadratic_bspline.1
  · exact C62_cubic_bspline.1

theorem weight_mirror {k : ℚ → ℚ} (hk : Symmetric k) {n newN : Int} (hN : 1 ≤ newN) (x i : Int) :
    sampleWeight k n newN (newN - 1 - x) (n - 1 - i) = sampleWeight k n newN x i := by
  have hNq : (newN : ℚ) ≠ 0 := by exact_mod_cast (by omega : newN ≠ 0)
  unfold sampleWeight
  have e : samplePosition n newN (newN - 1 - x) = n - 1 - samplePosition n newN x := by
    unfold samplePosition
    push_cast
    field_simp
    ring
  rw [e]
  have : (((n - 1 - i : Int) : ℚ) - (n - 1 - samplePosition n newN x)) * min ((newN : ℚ) / n) 1 =
      -((i - samplePosition n newN x) * min ((newN : ℚ) / n) 1) := by
    push_cast
    ring
  rw [this, hk]

theorem sum_mirror {n : Int} (f : Int → ℚ) : ∑ i ∈ spanOf ⟨0, n⟩, f (n - 1 - i) = ∑ i ∈ spanOf ⟨0, n⟩, f i := by
  have mem : ∀ i, i ∈ spanOf ⟨0, n⟩ → n - 1 - i ∈ spanOf ⟨0, n⟩ := by
    intro i hi
    obtain ⟨a, b⟩ : (0 : Int) ≤ i ∧ i < 0 + n := Finset.mem_Ico.1 hi
    exact Finset.mem_Ico.2 ⟨by show (0 : Int) ≤ n - 1 - i; omega, by show n - 1 - i < 0 + n; omega⟩
  exact Finset.sum_bij' (fun i _ => n - 1 - i) (fun i _ => n - 1 - i) mem mem (fun i _ => by ring) (fun i _ => by ring)
    (fun i _ => rfl)

theorem resized_mirror_columns {k : ℚ → ℚ} (hk : Symmetric k) {w h newW newH : Int} (hW : 1 ≤ newW) (img : Int → Int → ℚ) (x y : Int) :
    resizedValue k w h newW newH (fun i j => img (w - 1 - i) j) (newW - 1 - x) y = resizedValue k w h newW newH img x y := by
  unfold resizedValue
  rw [← sum_mirror (n := w) fun i => sampleWeight k w newW (newW - 1 - x) i,
    ← sum_mirror (n := w) fun i => ∑ j ∈ spanOf ⟨0, h⟩, sampleWeight k w newW (newW - 1 - x) i * sampleWeight k h newH y j * img (w - 1 - i) j]
  simp only [weight_mirror hk hW, sub_sub_cancel]

theorem resized_transpose (k : ℚ → ℚ) (w h newW newH : Int) (img : Int → Int → ℚ) (x y : Int) :
    resizedValue k h w newH newW (fun i j => img j i) y x = resizedValue k w h newW newH img x y := by
  unfold resizedValue
  rw [mul_comm (∑ i ∈ spanOf ⟨0, h⟩, _), Finset.sum_comm]
  congr 1
  refine Finset.sum_congr rfl fun i _ => Finset.sum_congr rfl fun j _ => ?_
  ring

theorem resized_mirror_rows {k : ℚ → ℚ} (hk : Symmetric k) {w h newW newH : Int} (hH : 1 ≤ newH) (img : Int → Int → ℚ) (x y : Int) :
    resizedValue k w h newW newH (fun i j => img i (h - 1 - j)) x (newH - 1 - y) = resizedValue k w h newW newH img x y := by
  rw [← resized_transpose, ← resized_transpose k w h newW newH img]
  exact resized_mirror_columns hk hH (fun i j => img j i) y x

theorem resized_congr {k : ℚ → ℚ} {w h newW newH : Int} {a b : Int → Int → ℚ} {x y : Int}
    (hab : ∀ i j, (0 ≤ i ∧ i < w) → (0 ≤ j ∧ j < h) → sampleWeight k w newW x i ≠ 0 → sampleWeight k h newH y j ≠ 0 → a i j = b i j) :
    resizedValue k w h newW newH a x y = resizedValue k w h newW newH b x y := by
  unfold resizedValue
  congr 1
  refine Finset.sum_congr rfl fun i hi => Finset.sum_congr rfl fun j hj => ?_
  obtain ⟨i0, i1⟩ : (0 : Int) ≤ i ∧ i < 0 + w := Finset.mem_Ico.1 hi
  obtain ⟨j0, j1⟩ : (0 : Int) ≤ j ∧ j < 0 + h := Finset.mem_Ico.1 hj
  by_cases hx : sampleWeight k w newW x i = 0
  · rw [hx]; ring
  by_cases hy : sampleWeight k h newH y j = 0
  · rw [hy]; ring
  rw [hab i j (by omega) (by omega) hx hy]

theorem resized_mono {k : ℚ → ℚ} (hk : ∀ s, 0 ≤ k s) {w h newW newH : Int} {a b : Int → Int → ℚ} {x y : Int}
    (hab : ∀ i j, (0 ≤ i ∧ i < w) → (0 ≤ j ∧ j < h) → a i j ≤ b i j) :
    resizedValue k w h newW newH a x y ≤ resizedValue k w h newW newH b x y := by
  have nn : ∀ n N x i, 0 ≤ sampleWeight k n N x i := fun n N x i => hk _
  unfold resizedValue
  refine div_le_div_of_nonneg_right (Finset.sum_le_sum fun i hi => Finset.sum_le_sum fun j hj => ?_)
    (mul_nonneg (Finset.sum_nonneg fun i _ => nn _ _ _ _) (Finset.sum_nonneg fun i _ => nn _ _ _ _))
  obtain ⟨i0, i1⟩ : (0 : Int) ≤ i ∧ i < 0 + w := Finset.mem_Ico.1 hi
  obtain ⟨j0, j1⟩ : (0 : Int) ≤ j ∧ j < 0 + h := Finset.mem_Ico.1 hj
  exact mul_le_mul_of_nonneg_left (hab i j (by omega) (by omega)) (mul_nonneg (nn _ _ _ _) (nn _ _ _ _))

theorem limited_mono (top : Int) {a b : ℚ} (h : a ≤ b) : limited top a ≤ limited top b :=
  max_le_max le_rfl (min_le_min h le_rfl)

/-- The weights of a kernel that reconstructs linear functions, in an image that is not made smaller. -/
theorem weights_linear {k : ℚ → ℚ} {R : ℚ} (hs : Symmetric k) (hk : ∀ a b : ℚ, Reconstructs k R fun x => a + b * x) {n newN : Int}
    (hn : 1 ≤ n) (hN : n ≤ newN) {x : Int} (h0 : R - 1 ≤ samplePosition n newN x) (h1 : samplePosition n newN x ≤ n - R) :
    ∑ i ∈ spanOf ⟨0, n⟩, sampleWeight k n newN x i = 1 ∧
    ∑ i ∈ spanOf ⟨0, n⟩, sampleWeight k n newN x i * i = samplePosition n newN x := by
  set p := samplePosition n newN x with hp
  have hnq : (0 : ℚ) < n := by exact_mod_cast (by omega : 0 < n)
  have one : min ((newN : ℚ) / n) 1 = 1 := min_eq_right ((one_le_div hnq).2 (by exact_mod_cast hN))
  have w : ∀ i : Int, sampleWeight k n newN x i = k (p - i) := by
    intro i
    unfold sampleWeight
    rw [one, mul_one, ← hp, ← hs, neg_sub]
  have samples : ∀ i : Int, |p - (i : ℚ)| < R → i ∈ spanOf ⟨0, n⟩ := by
    intro i hi
    obtain ⟨a, b⟩ := abs_lt.1 hi
    have c : (-1 : ℚ) < i := by linarith
    have d : (i : ℚ) < n := by linarith
    have c' : -1 < i := by exact_mod_cast c
    have d' : i < n := by exact_mod_cast d
    exact Finset.mem_Ico.2 ⟨by show (0 : Int) ≤ i; omega, by show i < 0 + n; omega⟩
  have r1 := hk 1 0 p _ samples
  have r2 := hk 0 1 p _ samples
  simp only [zero_mul, add_zero, one_mul, zero_add] at r1 r2
  constructor
  · rw [← r1]
    exact Finset.sum_congr rfl fun i _ => w i
  · rw [← r2]
    refine Finset.sum_congr rfl fun i _ => ?_
    rw [w i, mul_comm]

theorem resized_gradient {k : ℚ → ℚ} {R : ℚ} (hs : Symmetric k) (hk : ∀ a b : ℚ, Reconstructs k R fun x => a + b * x)
    {w h newW newH : Int} (hw : 1 ≤ w) (hW : w ≤ newW) (hh : 1 ≤ h) (hH : h ≤ newH) {x y : Int}
    (x0 : R - 1 ≤ samplePosition w newW x) (x1 : samplePosition w newW x ≤ w - R)
    (y0 : R - 1 ≤ samplePosition h newH y) (y1 : samplePosition h newH y ≤ h - R) {img : Int → Int → ℚ} (a b c : ℚ)
    (himg : ∀ i j, (0 ≤ i ∧ i < w) → (0 ≤ j ∧ j < h) → img i j = a + b * i + c * j) :
    resizedValue k w h newW newH img x y = a + b * samplePosition w newW x + c * samplePosition h newH y := by
  obtain ⟨sx, px⟩ := weights_linear hs hk hw hW x0 x1
  obtain ⟨sy, py⟩ := weights_linear hs hk hh hH y0 y1
  rw [resized_congr (b := fun i j => a + b * i + c * j) fun i j hi hj _ _ => himg i j hi hj]
  unfold resizedValue
  rw [sx, sy, mul_one, div_one]
  have inner : ∀ i : Int, ∑ j ∈ spanOf ⟨0, h⟩, sampleWeight k w newW x i * sampleWeight k h newH y j * (a + b * i + c * j) =
      (a + c * samplePosition h newH y) * sampleWeight k w newW x i + b * (sampleWeight k w newW x i * i) := by
    intro i
    rw [← py]
    have : ∀ j : Int, sampleWeight k w newW x i * sampleWeight k h newH y j * (a + b * i + c * j) =
        sampleWeight k w newW x i * (a + b * i) * sampleWeight k h newH y j +
          sampleWeight k w newW x i * c * (sampleWeight k h newH y j * j) := fun j => by ring
    simp only [this]
    rw [Finset.sum_add_distrib, ← Finset.mul_sum, ← Finset.mul_sum, sy]
    ring
  simp only [inner]
  rw [Finset.sum_add_distrib, ← Finset.mul_sum, ← Finset.mul_sum, sx, px]
  ring

end Nda
