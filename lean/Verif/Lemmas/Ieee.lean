import Verif.Spec.ExamplePrograms
import Verif.Props.RoundingResample
/-
Lemmas on IEEE 754 numbers with infinities and NaN (C93).
-/
namespace Nda
open Spec
variable {rnd : ℚ → Int} {p : Nat} {emin : Int} {Ω : ℚ}

theorem Spec.Ieee.finite_rounded (x : ℚ) :
    (Ieee.rounded rnd p emin Ω x).finite = finiteOr Ω (nearestBinary rnd p emin x) := by
  unfold Ieee.rounded finiteOr
  split <;> rfl

theorem Spec.Ieee.value_eq (x : Ieee) : x.value = x.finite.getD 0 := by cases x <;> rfl

theorem Spec.Ieee.of_finite {x : Ieee} (h : IsBinary p emin Ω x.finite) : x = .num x.value := by
  obtain ⟨n, e, -, -, h, -⟩ := h
  cases x <;> first | rfl | cases h

/-- A result that is that of the arithmetic without infinities. -/
theorem Spec.Ieee.transport {x : Ieee} {y : Option ℚ} {q e : ℚ} (h : x.finite = y)
    (hy : IsBinary p emin Ω y ∧ |y.getD 0 - q| ≤ e) : IsBinary p emin Ω x.finite ∧ |x.value - q| ≤ e := by
  rw [Ieee.value_eq, h]
  exact hy

theorem ieeeOps_rounds {u η : ℚ}
    (R : RoundsFloat (binaryFloatOps rnd p emin Ω) (IsBinary p emin Ω) (fun x => x.getD 0) u η Ω) :
    RoundsFloat (ieeeOps rnd p emin Ω).toFloatOps (fun x => IsBinary p emin Ω x.finite) Ieee.value u η Ω where
  unit := R.unit
  underflow := R.underflow
  zero := ⟨R.zero.1, rfl⟩
  add a b ha hb hx := by
    rw [Ieee.value_eq a, Ieee.value_eq b] at hx ⊢
    refine Ieee.transport ?_ (R.add a.finite b.finite ha hb hx)
    rw [Ieee.of_finite ha, Ieee.of_finite hb]
    exact Ieee.finite_rounded _
  mul a b ha hb hx := by
    rw [Ieee.value_eq a, Ieee.value_eq b] at hx ⊢
    refine Ieee.transport ?_ (R.mul a.finite b.finite ha hb hx)
    rw [Ieee.of_finite ha, Ieee.of_finite hb]
    exact Ieee.finite_rounded _
  div a b ha hb h0 hx := by
    have h0' := h0
    rw [Ieee.value_eq b] at h0'
    rw [Ieee.value_eq a, Ieee.value_eq b] at hx ⊢
    refine Ieee.transport ?_ (R.div a.finite b.finite ha hb h0' hx)
    rw [Ieee.of_finite ha, Ieee.of_finite hb]
    show (if b.value = 0 then _ else _ : Ieee).finite = if b.value = 0 then none else _
    rw [if_neg h0, if_neg h0]
    exact Ieee.finite_rounded _
  sub a b ha hb hx := by
    rw [Ieee.value_eq a, Ieee.value_eq b] at hx ⊢
    refine Ieee.transport ?_ (R.sub a.finite b.finite ha hb hx)
    rw [Ieee.of_finite ha, Ieee.of_finite hb]
    show (Ieee.rounded rnd p emin Ω (a.value + -b.value)).finite = _
    rw [← sub_eq_add_neg]
    exact Ieee.finite_rounded _
  ofIndex i hi := Ieee.transport (Ieee.finite_rounded _) (R.ofIndex i hi)
  one := ⟨R.one.1, rfl⟩
  nonZero a ha := by
    rw [Ieee.of_finite ha]
    show decide (Ieee.num a.value ≠ .num 0) = true ↔ a.value ≠ 0
    simp
  min a b ha hb := by
    have h := R.min a.finite b.finite ha hb
    rw [Ieee.of_finite ha, Ieee.of_finite hb] at h ⊢
    show IsBinary p emin Ω (if (decide (b.value < a.value)) = true then Ieee.num b.value else .num a.value).finite ∧
      (if (decide (b.value < a.value)) = true then Ieee.num b.value else .num a.value).value = _
    have e : (binaryFloatOps rnd p emin Ω).min (Ieee.num a.value).finite (Ieee.num b.value).finite =
        some (if b.value < a.value then b.value else a.value) := rfl
    rw [e] at h
    by_cases hlt : b.value < a.value
    · simp only [hlt, if_true, decide_true] at h ⊢
      exact h
    · simp only [hlt, if_false, decide_false] at h ⊢
      exact h

/-- `float`. -/
theorem ieeeFloat_rounds : RoundsFloat ieeeFloat.toFloatOps (fun x => IsFloat x.finite) Ieee.value ((2 : ℚ)⁻¹ ^ 24)
    ((2 : ℚ) ^ (-150 : Int)) largestFloat :=
  ieeeOps_rounds C84_float

theorem largestDouble_ge : (2 : ℚ) ^ 100 ≤ largestDouble := by
  unfold largestDouble
  have h : (2 : ℚ) ^ (100 : Nat) ≤ (2 : ℚ) ^ (971 : Int) := by
    rw [← zpow_natCast]
    exact zpow_le_zpow_right₀ (by norm_num) (by norm_num)
  have h1 : (1 : ℚ) ≤ ((2 ^ 53 - 1 : Int) : ℚ) := by norm_num
  exact h.trans (le_mul_of_one_le_left (by positivity) h1)

/-- `double`. -/
theorem ieeeDouble_rounds : RoundsFloat ieeeDouble.toFloatOps (fun x => IsBinary 53 (-1074) largestDouble x.finite)
    Ieee.value ((2 : ℚ)⁻¹ ^ 53) ((2 : ℚ) ^ (-1075 : Int)) largestDouble :=
  ieeeOps_rounds (binaryFloatOps_rounds roundEven_nearest (N := 2 ^ 53 - 1) (E := 971) (by norm_num) (by norm_num)
    (by norm_num) rfl (by norm_num) (le_trans (by norm_num) largestDouble_ge))

/-- Rounding keeps the sign. -/
theorem nearestBinary_nonneg (h : ToNearest rnd) {x : ℚ} (hx : 0 ≤ x) : 0 ≤ nearestBinary rnd p emin x := by
  unfold nearestBinary
  refine mul_nonneg ?_ (by positivity)
  have h1 := abs_le.1 (h (x / (2 : ℚ) ^ lastDigit p emin x))
  have h2 : 0 ≤ x / (2 : ℚ) ^ lastDigit p emin x := by positivity
  have h3 : (-1 : ℚ) < rnd (x / (2 : ℚ) ^ lastDigit p emin x) := by linarith [h1.2]
  have h4 : (-1 : Int) < rnd (x / (2 : ℚ) ^ lastDigit p emin x) := by exact_mod_cast h3
  exact_mod_cast (by omega : (0 : Int) ≤ rnd (x / (2 : ℚ) ^ lastDigit p emin x))

end Nda
