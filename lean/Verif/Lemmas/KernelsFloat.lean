import Verif.Spec.KernelsFloat
import Verif.Props.RoundingResample
import Verif.Model.Kernels
/-
Error bounds of the kernels in binary32.
-/
namespace Nda
open Spec Kernel

/-- A finite number within `e` of `v`. -/
def Near (x : Option ℚ) (v e : ℚ) : Prop := ∃ y, x = some y ∧ IsFloat x ∧ |y - v| ≤ e

theorem Near.of_isFloat {x : Option ℚ} (h : IsFloat x) : Near x (x.getD 0) 0 := by
  obtain ⟨n, e, h1, h2, rfl, h3⟩ := h
  exact ⟨_, rfl, ⟨n, e, h1, h2, rfl, h3⟩, by simp⟩

theorem Near.error {x : Option ℚ} {v e : ℚ} (h : Near x v e) : IsFloat x ∧ |x.getD 0 - v| ≤ e := by
  obtain ⟨y, rfl, h1, h2⟩ := h
  exact ⟨h1, h2⟩

theorem Near.mono {x : Option ℚ} {v e f : ℚ} (h : Near x v e) (he : e ≤ f) : Near x v f := by
  obtain ⟨y, h0, h1, h2⟩ := h
  exact ⟨y, h0, h1, h2.trans he⟩

theorem near_of {x : Option ℚ} {v e : ℚ} (h : IsFloat x) (he : |x.getD 0 - v| ≤ e) : Near x v e := by
  obtain ⟨n, k, h1, h2, rfl, h3⟩ := h
  exact ⟨_, rfl, ⟨n, k, h1, h2, rfl, h3⟩, he⟩

theorem largest_ge : (1000 : ℚ) ≤ largestFloat := by unfold largestFloat; norm_num

theorem Near.add {a b : Option ℚ} {v w e f A g : ℚ} (ha : Near a v e) (hb : Near b w f) (hA : |v + w| ≤ A)
    (hs : A + e + f ≤ 1000) (hg : e + f + 1 / 16777216 * (A + e + f) ≤ g) : Near (float32.add a b) (v + w) g := by
  obtain ⟨y, rfl, h1, h2⟩ := ha
  obtain ⟨z, rfl, k1, k2⟩ := hb
  have hsum : |y + z - (v + w)| ≤ e + f := by
    rw [show y + z - (v + w) = (y - v) + (z - w) by ring]
    exact (abs_add_le _ _).trans (by linarith)
  have hyz : |y + z| ≤ A + e + f := by
    have := abs_add_le (y + z - (v + w)) (v + w)
    rw [sub_add_cancel] at this
    linarith
  obtain ⟨r1, r2⟩ := C84_float.add _ _ h1 k1 (by
    show |y + z| ≤ _
    linarith [largest_ge])
  refine near_of r1 ?_
  change |(float32.add (some y) (some z)).getD 0 - (y + z)| ≤ (2 : ℚ)⁻¹ ^ 24 * |y + z| at r2
  have := abs_add_le ((float32.add (some y) (some z)).getD 0 - (y + z)) (y + z - (v + w))
  rw [sub_add_sub_cancel] at this
  norm_num at r2
  linarith

theorem Near.sub {a b : Option ℚ} {v w e f A g : ℚ} (ha : Near a v e) (hb : Near b w f) (hA : |v - w| ≤ A)
    (hs : A + e + f ≤ 1000) (hg : e + f + 1 / 16777216 * (A + e + f) ≤ g) : Near (float32.sub a b) (v - w) g := by
  obtain ⟨y, rfl, h1, h2⟩ := ha
  obtain ⟨z, rfl, k1, k2⟩ := hb
  have hsum : |y - z - (v - w)| ≤ e + f := by
    rw [show y - z - (v - w) = (y - v) - (z - w) by ring]
    exact (abs_sub _ _).trans (by linarith)
  have hyz : |y - z| ≤ A + e + f := by
    have := abs_add_le (y - z - (v - w)) (v - w)
    rw [sub_add_cancel] at this
    linarith
  obtain ⟨r1, r2⟩ := C84_float.sub _ _ h1 k1 (by
    show |y - z| ≤ _
    linarith [largest_ge])
  refine near_of r1 ?_
  change |(float32.sub (some y) (some z)).getD 0 - (y - z)| ≤ (2 : ℚ)⁻¹ ^ 24 * |y - z| at r2
  have := abs_add_le ((float32.sub (some y) (some z)).getD 0 - (y - z)) (y - z - (v - w))
  rw [sub_add_sub_cancel] at this
  norm_num at r2
  linarith

theorem Near.mul {a b : Option ℚ} {v w e f A B g : ℚ} (ha : Near a v e) (hb : Near b w f) (hA : |v| ≤ A)
    (hB : |w| ≤ B) (hs : (A + e) * (B + f) ≤ 1000)
    (hg : A * f + B * e + e * f + 1 / 16777216 * ((A + e) * (B + f)) + 1 / 2 ^ 100 ≤ g) :
    Near (float32.mul a b) (v * w) g := by
  obtain ⟨y, rfl, h1, h2⟩ := ha
  obtain ⟨z, rfl, k1, k2⟩ := hb
  have hy : |y| ≤ A + e := by
    have := abs_add_le (y - v) v
    rw [sub_add_cancel] at this
    linarith
  have hz : |z| ≤ B + f := by
    have := abs_add_le (z - w) w
    rw [sub_add_cancel] at this
    linarith
  have he0 := (abs_nonneg _).trans h2
  have hf0 := (abs_nonneg _).trans k2
  have hA0 := (abs_nonneg _).trans hA
  have hB0 := (abs_nonneg _).trans hB
  have hprod : |y * z - v * w| ≤ A * f + B * e + e * f := by
    rw [show y * z - v * w = v * (z - w) + w * (y - v) + (y - v) * (z - w) by ring]
    refine (abs_add_le _ _).trans (add_le_add ((abs_add_le _ _).trans (add_le_add ?_ ?_)) ?_) <;> rw [abs_mul]
    · exact mul_le_mul hA k2 (abs_nonneg _) hA0
    · exact mul_le_mul hB h2 (abs_nonneg _) hB0
    · exact mul_le_mul h2 k2 (abs_nonneg _) he0
  have hyz : |y * z| ≤ (A + e) * (B + f) := by
    rw [abs_mul]
    exact mul_le_mul hy hz (abs_nonneg _) (by linarith)
  obtain ⟨r1, r2⟩ := C84_float.mul _ _ h1 k1 (by
    show |y * z| ≤ _
    linarith [largest_ge])
  refine near_of r1 ?_
  change |(float32.mul (some y) (some z)).getD 0 - (y * z)| ≤ (2 : ℚ)⁻¹ ^ 24 * |y * z| + (2 : ℚ) ^ (-150 : Int) at r2
  have hη : (2 : ℚ) ^ (-150 : Int) ≤ 1 / 2 ^ 100 := by norm_num
  have hu : (2 : ℚ)⁻¹ ^ 24 = 1 / 16777216 := by norm_num
  have := abs_add_le ((float32.mul (some y) (some z)).getD 0 - (y * z)) (y * z - v * w)
  rw [sub_add_sub_cancel] at this
  rw [hu] at r2
  linarith

/-- A constant that is computed exactly. -/
theorem near_const {x : Option ℚ} {c : ℚ} (n e : Int) (h : x = some c) (hc : c = n * (2 : ℚ) ^ e) (he : -149 ≤ e)
    (hn : |n| ≤ 2 ^ 24) (hΩ : |c| ≤ 1000) : Near x c 0 := by
  subst h
  exact ⟨c, rfl, ⟨n, e, he, hn, by rw [hc], by rw [← hc]; linarith [largest_ge]⟩, by simp⟩

/-- A constant that is rounded. -/
theorem near_round {x : Option ℚ} {c v : ℚ} (n e : Int) (h : x = some c) (hc : c = n * (2 : ℚ) ^ e) (he : -149 ≤ e)
    (hn : |n| ≤ 2 ^ 24) (hΩ : |c| ≤ 1000) {g : ℚ} (hg : |c - v| ≤ g) : Near x v g := by
  subst h
  exact ⟨c, rfl, ⟨n, e, he, hn, by rw [hc], by rw [← hc]; linarith [largest_ge]⟩, hg⟩

theorem isFloat_abs {y : ℚ} (h : IsFloat (some y)) : IsFloat (some |y|) := by
  obtain ⟨n, e, he, hn, h0, hΩ⟩ := h
  refine ⟨|n|, e, he, by rwa [abs_abs], ?_, ?_⟩
  · rw [Option.some.inj h0, abs_mul, abs_of_pos (two_zpow_pos e), Int.cast_abs]
  · rw [Int.cast_abs]
    rw [abs_mul, abs_of_pos (two_zpow_pos e)] at hΩ
    rwa [abs_mul, abs_abs, abs_of_pos (two_zpow_pos e)]

theorem lit_lt {y q : ℚ} (x : ℚ) (hq : float32Kernel.lit q = some x) :
    float32Kernel.lt (some y) (float32Kernel.lit q) = decide (y < x) := by rw [hq]; rfl

theorem lit_le {y q : ℚ} (x : ℚ) (hq : float32Kernel.lit q = some x) :
    float32Kernel.le (some y) (float32Kernel.lit q) = decide (y ≤ x) := by rw [hq]; rfl

theorem isFloat_zero : IsFloat (some 0) := ⟨0, 0, by norm_num, by norm_num, by simp, by simp [largestFloat]⟩

/-- Like `Computes`, in terms of `Near` and of non-negative arguments. -/
theorem computes_of {k : Option ℚ → Option ℚ} {K : ℚ → ℚ} {r ε : ℚ} (κ : ℚ → Option ℚ)
    (hk : ∀ y : ℚ, k (some y) = κ |y|) (hK : ∀ y, K y = K |y|)
    (h : ∀ y, 0 ≤ y → IsFloat (some y) → Near (κ y) (K y) ε ∧ (r < y → κ y = some 0)) : Computes k K r ε := by
  have main : ∀ s, IsFloat s → ∃ y, s = some y ∧ Near (k s) (K y) ε ∧ (r < |y| → k s = some 0) := by
    intro s hs
    obtain ⟨n, e, he, hn, rfl, hΩ⟩ := hs
    refine ⟨_, rfl, ?_⟩
    rw [hk, hK]
    exact h _ (abs_nonneg _) (isFloat_abs ⟨n, e, he, hn, rfl, hΩ⟩)
  refine ⟨fun s hs => ?_, fun s hs => ?_, fun s hs hr => ?_⟩ <;> obtain ⟨y, rfl, h1, h2⟩ := main s hs
  · exact h1.error.1
  · exact h1.error.2
  · exact h2 hr

theorem float_abs_abs (y : ℚ) : float32Kernel.abs (some y) = float32Kernel.abs (some |y|) := by
  show some |y| = some |(|y|)|
  rw [abs_abs]

theorem float_abs_nonneg {y : ℚ} (h : 0 ≤ y) : float32Kernel.abs (some y) = some y := by
  show some |y| = some y
  rw [abs_of_nonneg h]

theorem quadraticOp_even (y : ℚ) (r : Option ℚ) :
    quadraticFamilyOp float32Kernel (some y) r = quadraticFamilyOp float32Kernel (some |y|) r := by
  unfold quadraticFamilyOp
  rw [float_abs_abs]

theorem cubicOp_even (y : ℚ) (B C : Option ℚ) :
    cubicFamilyOp float32Kernel (some y) B C = cubicFamilyOp float32Kernel (some |y|) B C := by
  unfold cubicFamilyOp
  rw [float_abs_abs]

/-- The quadratic kernels, from the constants that they compute. -/
theorem quadratic_computes {r : ℚ} {R : Option ℚ}
    (h1 : Near (float32Kernel.mul (float32Kernel.lit (-2)) R) (-2 * r) 0)
    (h2 : Near (float32Kernel.mul (float32Kernel.lit (1 / 2)) (float32Kernel.add R (float32Kernel.lit 1))) (1 / 2 * (r + 1)) 0)
    (h3 : Near (float32Kernel.sub (float32Kernel.mul (float32Kernel.lit (-2)) R) (float32Kernel.lit (1 / 2)))
      (-2 * r - 1 / 2) 0)
    (h4 : Near (float32Kernel.mul (float32Kernel.lit (3 / 4)) (float32Kernel.add R (float32Kernel.ofIndex 1)))
      (3 / 4 * (r + 1)) 0)
    (h5 : Near R r 0) (hr0 : 0 ≤ r) (hr1 : r ≤ 1) :
    Computes (fun s => quadraticFamilyOp float32Kernel s R) (fun s => quadraticFamily s r) (3 / 2) (1 / 2 ^ 20) := by
  refine computes_of (fun y => quadraticFamilyOp float32Kernel (some y) R) (fun y => quadraticOp_even y R) (fun y => ?_)
    fun y h0 hy => ?_
  · unfold quadraticFamily
    rw [abs_abs]
  · have ns : Near (some y) y 0 := Near.of_isFloat hy
    have l1 : float32Kernel.lit (1 / 2) = some (1 / 2) := by decide +kernel
    have l2 : float32Kernel.lit (3 / 2) = some (3 / 2) := by decide +kernel
    unfold quadraticFamilyOp quadraticFamily
    rw [float_abs_nonneg h0, abs_of_nonneg h0]
    dsimp only
    rw [lit_lt _ l1, lit_lt _ l2]
    simp only [decide_eq_true_eq]
    split <;> rename_i c
    · refine ⟨?_, fun h => absurd h (by linarith)⟩
      have s2 := Near.mul ns ns (A := 1 / 2) (B := 1 / 2) (g := 1 / 2 ^ 25) (by rw [abs_of_nonneg h0]; exact c.le)
        (by rw [abs_of_nonneg h0]; exact c.le) (by norm_num) (by norm_num)
      have y2 : y * y ≤ 1 / 4 := by nlinarith
      have y20 : 0 ≤ y * y := by positivity
      have t := Near.mul h1 s2 (A := 2) (B := 1 / 4) (g := 1 / 2 ^ 22) (by rw [abs_le]; constructor <;> linarith)
        (by rw [abs_of_nonneg y20]; exact y2) (by norm_num) (by norm_num)
      refine Near.add t h2 (A := 2) ?_ (by norm_num) (by norm_num)
      rw [abs_le]
      constructor <;> nlinarith
    · split <;> rename_i c'
      · refine ⟨?_, fun h => absurd h (by linarith)⟩
        have hy0 : |y| ≤ 3 / 2 := by rw [abs_of_nonneg h0]; exact c'.le
        have s2 := Near.mul ns ns (A := 3 / 2) (B := 3 / 2) (g := 226 / 100 / 2 ^ 24) hy0 hy0 (by norm_num) (by norm_num)
        have y2 : y * y ≤ 9 / 4 := by nlinarith
        have y20 : 0 ≤ y * y := by positivity
        have t1 := Near.mul h5 s2 (A := 1) (B := 9 / 4) (g := 453 / 100 / 2 ^ 24) (by rw [abs_of_nonneg hr0]; exact hr1)
          (by rw [abs_of_nonneg y20]; exact y2) (by norm_num) (by norm_num)
        have t2 := Near.mul h3 ns (A := 5 / 2) (B := 3 / 2) (g := 376 / 100 / 2 ^ 24)
          (by rw [abs_le]; constructor <;> linarith) hy0 (by norm_num) (by norm_num)
        have hc := not_lt.1 c
        have t3 := Near.add t1 t2 (A := 2) (g := 1030 / 100 / 2 ^ 24) (by
          rw [abs_le]
          constructor
          · nlinarith [mul_nonneg hr0 (sq_nonneg (y - 1)), mul_nonneg (sub_nonneg.2 hr1) h0]
          · nlinarith [mul_nonneg hr0 h0, mul_nonneg hr0 (mul_nonneg h0 (sub_nonneg.2 c'.le))]) (by norm_num) (by norm_num)
        refine Near.add t3 h4 (A := 2) ?_ (by norm_num) (by norm_num)
        have q1 : 0 ≤ r * ((y - 1 / 2) * (3 / 2 - y)) := mul_nonneg hr0 (mul_nonneg (by linarith) (by linarith))
        have q2 : 0 ≤ r * (y - 1) ^ 2 := mul_nonneg hr0 (sq_nonneg _)
        rw [abs_le]
        constructor <;> nlinarith
      · exact ⟨⟨0, by decide +kernel, by
          have : float32Kernel.ofIndex 0 = some 0 := by decide +kernel
          rw [this]; exact isFloat_zero, by simp⟩, fun _ => by decide +kernel⟩

theorem quadratic_one : Computes (interpolatingQuadraticOp float32Kernel) interpolatingQuadratic (3 / 2) (1 / 2 ^ 20) := by
  refine quadratic_computes (r := 1) (R := float32Kernel.lit 1) ?_ ?_ ?_ ?_ ?_ (by norm_num) (by norm_num)
  · exact near_const (-2) 0 (by decide +kernel) (by norm_num) (by norm_num) (by norm_num) (by norm_num)
  · exact near_const 1 0 (by decide +kernel) (by norm_num) (by norm_num) (by norm_num) (by norm_num)
  · exact near_const (-5) (-1) (by decide +kernel) (by norm_num) (by norm_num) (by norm_num) (by norm_num)
  · exact near_const 3 (-1) (by decide +kernel) (by norm_num) (by norm_num) (by norm_num) (by norm_num)
  · exact near_const 1 0 (by decide +kernel) (by norm_num) (by norm_num) (by norm_num) (by norm_num)

theorem quadratic_half : Computes (quadraticBsplineOp float32Kernel) quadraticBspline (3 / 2) (1 / 2 ^ 20) := by
  refine quadratic_computes (r := 1 / 2) (R := float32Kernel.lit (1 / 2)) ?_ ?_ ?_ ?_ ?_ (by norm_num) (by norm_num)
  · exact near_const (-1) 0 (by decide +kernel) (by norm_num) (by norm_num) (by norm_num) (by norm_num)
  · exact near_const 3 (-2) (by decide +kernel) (by norm_num) (by norm_num) (by norm_num) (by norm_num)
  · exact near_const (-3) (-1) (by decide +kernel) (by norm_num) (by norm_num) (by norm_num) (by norm_num)
  · exact near_const 9 (-3) (by decide +kernel) (by norm_num) (by norm_num) (by norm_num) (by norm_num)
  · exact near_const 1 (-1) (by decide +kernel) (by norm_num) (by norm_num) (by norm_num) (by norm_num)

/-- The cubic kernels, from the constants that they compute. -/
theorem cubic_computes {B C : ℚ} {P Q : Option ℚ} {a3 a2 a0 b3 b2 b1 b0 : ℚ}
    (h3 : Near (float32Kernel.sub (float32Kernel.sub (float32Kernel.lit 2) (float32Kernel.mul P (float32Kernel.lit (3 / 2)))) Q)
      a3 0)
    (h2 : Near (float32Kernel.add (float32Kernel.add (float32Kernel.lit (-3)) (float32Kernel.mul (float32Kernel.lit 2) P)) Q)
      a2 0)
    (h0 : Near (float32Kernel.sub (float32Kernel.lit 1) (float32Kernel.div P (float32Kernel.lit 3))) a0 (1 / 2 ^ 24))
    (k3 : Near (float32Kernel.sub (float32Kernel.div (float32Kernel.neg P) (float32Kernel.lit 6)) Q) b3 (1 / 2 ^ 26))
    (k2 : Near (float32Kernel.add P (float32Kernel.mul (float32Kernel.lit 5) Q)) b2 0)
    (k1 : Near (float32Kernel.sub (float32Kernel.mul (float32Kernel.lit (-2)) P) (float32Kernel.mul (float32Kernel.lit 8) Q))
      b1 0)
    (k0 : Near (float32Kernel.add (float32Kernel.div (float32Kernel.mul P (float32Kernel.lit 4)) (float32Kernel.lit 3))
      (float32Kernel.mul (float32Kernel.lit 4) Q)) b0 (1 / 2 ^ 24))
    (e3 : 2 - B * (3 / 2) - C = a3) (e2 : -3 + 2 * B + C = a2) (e0 : 1 - B / 3 = a0) (f3 : -B / 6 - C = b3)
    (f2 : B + 5 * C = b2) (f1 : -2 * B - 8 * C = b1) (f0 : B * 4 / 3 + 4 * C = b0)
    (m3 : |a3| ≤ 3 / 2) (m2 : |a2| ≤ 5 / 2) (m0 : |a0| ≤ 1) (n3 : |b3| ≤ 1 / 2) (n2 : |b2| ≤ 5 / 2) (n1 : |b1| ≤ 4)
    (n0 : |b0| ≤ 2) :
    Computes (fun s => cubicFamilyOp float32Kernel s P Q) (fun s => cubicFamily s B C) 2 (1 / 2 ^ 17) := by
  refine computes_of (fun y => cubicFamilyOp float32Kernel (some y) P Q) (fun y => cubicOp_even y P Q) (fun y => ?_)
    fun y y0 hy => ?_
  · unfold cubicFamily
    rw [abs_abs]
  · have ns : Near (some y) y 0 := Near.of_isFloat hy
    have l1 : float32Kernel.lit 1 = some 1 := by decide +kernel
    have l2 : float32Kernel.lit 2 = some 2 := by decide +kernel
    unfold cubicFamilyOp cubicFamily
    rw [float_abs_nonneg y0, abs_of_nonneg y0, e3, e2, e0, f3, f2, f1, f0]
    dsimp only
    rw [lit_le _ l1, lit_le _ l2]
    simp only [decide_eq_true_eq]
    have bound : ∀ {a b A B : ℚ}, |a| ≤ A → |b| ≤ B → |a * b| ≤ A * B := fun ha hb => by
      rw [abs_mul]; exact mul_le_mul ha hb (abs_nonneg _) ((abs_nonneg _).trans ha)
    have total : ∀ {a b A B C : ℚ}, |a| ≤ A → |b| ≤ B → A + B ≤ C → |a + b| ≤ C := fun ha hb hc =>
      (abs_add_le _ _).trans (by linarith)
    split <;> rename_i c
    · refine ⟨?_, fun h => absurd h (by linarith)⟩
      have hy1 : |y| ≤ 1 := by rw [abs_of_nonneg y0]; exact c
      have hy2 : |y * y| ≤ 1 := (bound hy1 hy1).trans (by norm_num)
      have hy3 : |y * y * y| ≤ 1 := (bound hy2 hy1).trans (by norm_num)
      have s2 := Near.mul ns ns hy1 hy1 (g := 101 / 100 / 2 ^ 24) (by norm_num) (by norm_num)
      have s3 := Near.mul s2 ns hy2 hy1 (g := 202 / 100 / 2 ^ 24) (by norm_num) (by norm_num)
      have t3 := Near.mul h3 s3 m3 hy3 (g := 5 / 2 ^ 24) (by norm_num) (by norm_num)
      have t2 := Near.mul h2 s2 m2 hy2 (g := 6 / 2 ^ 24) (by norm_num) (by norm_num)
      have b32 := total (bound m3 hy3) (bound m2 hy2) (C := 4) (by norm_num)
      have t32 := Near.add t3 t2 b32 (g := 16 / 2 ^ 24) (by norm_num) (by norm_num)
      exact Near.add t32 h0 (total b32 m0 (C := 5) (by norm_num)) (by norm_num) (by norm_num)
    · split <;> rename_i c'
      · refine ⟨?_, fun h => absurd h (by linarith)⟩
        have hy1 : |y| ≤ 2 := by rw [abs_of_nonneg y0]; exact c'
        have hy2 : |y * y| ≤ 4 := (bound hy1 hy1).trans (by norm_num)
        have hy3 : |y * y * y| ≤ 8 := (bound hy2 hy1).trans (by norm_num)
        have s2 := Near.mul ns ns hy1 hy1 (g := 401 / 100 / 2 ^ 24) (by norm_num) (by norm_num)
        have s3 := Near.mul s2 ns hy2 hy1 (g := 1604 / 100 / 2 ^ 24) (by norm_num) (by norm_num)
        have t3 := Near.mul k3 s3 n3 hy3 (g := 15 / 2 ^ 24) (by norm_num) (by norm_num)
        have t2 := Near.mul k2 s2 n2 hy2 (g := 21 / 2 ^ 24) (by norm_num) (by norm_num)
        have t1 := Near.mul k1 ns n1 hy1 (g := 9 / 2 ^ 24) (by norm_num) (by norm_num)
        have b32 := total (bound n3 hy3) (bound n2 hy2) (C := 14) (by norm_num)
        have t32 := Near.add t3 t2 b32 (g := 51 / 2 ^ 24) (by norm_num) (by norm_num)
        have b321 := total b32 (bound n1 hy1) (C := 22) (by norm_num)
        have t321 := Near.add t32 t1 b321 (g := 83 / 2 ^ 24) (by norm_num) (by norm_num)
        exact Near.add t321 k0 (total b321 n0 (C := 24) (by norm_num)) (by norm_num) (by norm_num)
      · exact ⟨⟨0, by decide +kernel, by
          have : float32Kernel.lit 0 = some 0 := by decide +kernel
          rw [this]; exact isFloat_zero, by simp⟩, fun _ => by decide +kernel⟩

theorem cubic_interpolating : Computes (interpolatingCubicOp float32Kernel) interpolatingCubic 2 (1 / 2 ^ 17) := by
  refine cubic_computes (B := 0) (C := 1 / 2) (P := float32Kernel.lit 0) (Q := float32Kernel.lit (1 / 2))
    (a3 := 3 / 2) (a2 := -5 / 2) (a0 := 1) (b3 := -1 / 2) (b2 := 5 / 2) (b1 := -4) (b0 := 2) ?_ ?_ ?_ ?_ ?_ ?_ ?_
    ?_ ?_ ?_ ?_ ?_ ?_ ?_ ?_ ?_ ?_ ?_ ?_ ?_ ?_
  · exact near_const 3 (-1) (by decide +kernel) (by norm_num) (by norm_num) (by norm_num) (by norm_num [abs_le])
  · exact near_const (-5) (-1) (by decide +kernel) (by norm_num) (by norm_num) (by norm_num) (by norm_num [abs_le])
  · exact near_round 1 0 (c := 1) (by decide +kernel) (by norm_num) (by norm_num) (by norm_num) (by norm_num [abs_le]) (by norm_num)
  · exact near_round (-1) (-1) (c := -1 / 2) (by decide +kernel) (by norm_num) (by norm_num) (by norm_num) (by norm_num [abs_le]) (by norm_num)
  · exact near_const 5 (-1) (by decide +kernel) (by norm_num) (by norm_num) (by norm_num) (by norm_num [abs_le])
  · exact near_const (-4) 0 (by decide +kernel) (by norm_num) (by norm_num) (by norm_num) (by norm_num [abs_le])
  · exact near_round 2 0 (c := 2) (by decide +kernel) (by norm_num) (by norm_num) (by norm_num) (by norm_num [abs_le]) (by norm_num)
  all_goals norm_num [abs_le]

theorem cubic_spline : Computes (cubicBsplineOp float32Kernel) cubicBspline 2 (1 / 2 ^ 17) := by
  refine cubic_computes (B := 1) (C := 0) (P := float32Kernel.lit 1) (Q := float32Kernel.lit 0)
    (a3 := 1 / 2) (a2 := -1) (a0 := 2 / 3) (b3 := -1 / 6) (b2 := 1) (b1 := -2) (b0 := 4 / 3) ?_ ?_ ?_ ?_ ?_ ?_ ?_
    ?_ ?_ ?_ ?_ ?_ ?_ ?_ ?_ ?_ ?_ ?_ ?_ ?_ ?_
  · exact near_const 1 (-1) (by decide +kernel) (by norm_num) (by norm_num) (by norm_num) (by norm_num [abs_le])
  · exact near_const (-1) 0 (by decide +kernel) (by norm_num) (by norm_num) (by norm_num) (by norm_num [abs_le])
  · exact near_round 11184810 (-24) (c := 11184810 / 16777216) (by decide +kernel) (by norm_num) (by norm_num) (by norm_num)
      (by norm_num [abs_le]) (by norm_num [abs_le])
  · exact near_round (-11184811) (-26) (c := -11184811 / 67108864) (by decide +kernel) (by norm_num) (by norm_num) (by norm_num)
      (by norm_num [abs_le]) (by norm_num [abs_le])
  · exact near_const 1 0 (by decide +kernel) (by norm_num) (by norm_num) (by norm_num) (by norm_num [abs_le])
  · exact near_const (-2) 0 (by decide +kernel) (by norm_num) (by norm_num) (by norm_num) (by norm_num [abs_le])
  · exact near_round 11184811 (-23) (c := 11184811 / 8388608) (by decide +kernel) (by norm_num) (by norm_num) (by norm_num)
      (by norm_num [abs_le]) (by norm_num [abs_le])
  all_goals norm_num [abs_le]

theorem box_computes : Computes (boxOp float32Kernel) box (1 / 2) 0 := by
  refine computes_of (fun y => boxOp float32Kernel (some y)) (fun y => ?_) (fun y => ?_) fun y h0 hy => ?_
  · unfold boxOp
    rw [float_abs_abs]
  · unfold box
    rw [abs_abs]
  · have l1 : float32Kernel.lit (1 / 2) = some (1 / 2) := by decide +kernel
    unfold boxOp box
    rw [float_abs_nonneg h0, abs_of_nonneg h0, lit_le _ l1]
    simp only [decide_eq_true_eq]
    split <;> rename_i c
    · exact ⟨near_const 1 0 (by decide +kernel) (by norm_num) (by norm_num) (by norm_num) (by norm_num),
        fun h => absurd h (by linarith)⟩
    · exact ⟨near_const 0 0 (by decide +kernel) (by norm_num) (by norm_num) (by norm_num) (by norm_num),
        fun _ => by decide +kernel⟩

theorem linearOp_eq (y : ℚ) (hy : IsFloat (some y)) : linearOp float32Kernel (some y) = linearFloat (some y) := by
  have h := (C84_linear (some y) hy).1
  have l0 : float32Kernel.lit 0 = some 0 := by decide +kernel
  have l1 : float32Kernel.lit 1 = some 1 := by decide +kernel
  have e1 : linearFloat (some y) = (float32.sub (some 1) (some |y|)).map fun x => max 0 x := rfl
  have e2 : linearOp float32Kernel (some y) = (if float32Kernel.lt (float32Kernel.lit 0)
      (float32.sub (float32Kernel.lit 1) (some |y|)) = true then float32.sub (float32Kernel.lit 1) (some |y|)
      else float32Kernel.lit 0) := rfl
  rw [e1] at h ⊢
  rw [e2, l0, l1]
  generalize float32.sub (some 1) (some |y|) = x at *
  cases x with
  | none => obtain ⟨n, e, -, -, h, -⟩ := h; cases h
  | some z =>
    show (if decide ((0 : ℚ) < z) = true then some z else some 0) = some (max 0 z)
    simp only [decide_eq_true_eq]
    split <;> rename_i c
    · rw [max_eq_right c.le]
    · rw [max_eq_left (not_lt.1 c)]

theorem linear_computes : Computes (linearOp float32Kernel) linear 1 (1 / 2 ^ 24) := by
  have he : ∀ y : ℚ, linear y = max 0 (1 - |y|) := by
    intro y
    unfold linear
    split <;> rename_i c
    · rw [max_eq_right c.le]
    · rw [max_eq_left (not_lt.1 c)]
  refine computes_of (fun y => linearOp float32Kernel (some y)) (fun y => ?_) (fun y => ?_) fun y h0 hy => ?_
  · unfold linearOp
    rw [float_abs_abs]
  · unfold linear
    rw [abs_abs]
  · obtain ⟨h1, h2, h3⟩ := C84_linear (some y) hy
    rw [linearOp_eq y hy, he]
    refine ⟨near_of h1 (h2.trans (by norm_num)), fun h => ?_⟩
    -- the difference is negative, and stays so
    have hΩ : y ≤ largestFloat := by
      obtain ⟨n, e, -, -, h, hb⟩ := hy
      rw [Option.some.inj h]
      exact (le_abs_self _).trans hb
    obtain ⟨⟨n, e, -, -, hz, -⟩, r⟩ := C84_float.sub (some 1) (some y) C84_float.one.1 hy (by
      show |1 - y| ≤ _
      rw [abs_le]
      constructor <;> linarith [largest_ge])
    change |(float32.sub (some 1) (some y)).getD 0 - (1 - y)| ≤ (2 : ℚ)⁻¹ ^ 24 * |1 - y| at r
    show ((float32.sub (some 1) (some |y|)).map fun x => max 0 x) = some 0
    rw [abs_of_nonneg h0, hz]
    rw [hz, abs_of_nonpos (by linarith : 1 - y ≤ 0)] at r
    simp only [Option.getD_some, Option.map_some] at r ⊢
    rw [max_eq_left]
    have := (abs_le.1 r).2
    norm_num at this
    linarith

end Nda
