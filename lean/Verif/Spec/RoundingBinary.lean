import Verif.Spec.Rounding
/-
Binary floating-point formats with bounded exponents (C82).
-/
namespace Nda.Spec

/-- The exponent of the last digit of the number nearest to `x`. -/
def lastDigit (p : Nat) (emin : Int) (x : ℚ) : Int := max (Int.log 2 |x| + 1 - p) emin

/-- The number nearest to `x` with `p` binary digits, the last of which is not below `2^emin`. `rnd` rounds to
integers. -/
def nearestBinary (rnd : ℚ → Int) (p : Nat) (emin : Int) (x : ℚ) : ℚ :=
  rnd (x / (2 : ℚ) ^ lastDigit p emin x) * (2 : ℚ) ^ lastDigit p emin x

/-- A number if it is at most `Ω` in magnitude; infinities and NaN are not told apart. -/
def finiteOr (Ω x : ℚ) : Option ℚ := if |x| ≤ Ω then some x else none

/-- IEEE 754 arithmetic of a binary format with `p` digits, the last of which is not below `2^emin`, and the largest
number `Ω`. `none` is anything that is not a finite number, zeros have no sign. -/
def binaryOps (rnd : ℚ → Int) (p : Nat) (emin : Int) (Ω : ℚ) : ScalarOps (Option ℚ) where
  zero := some 0
  add a b := do finiteOr Ω (nearestBinary rnd p emin ((← a) + (← b)))
  mul a b := do finiteOr Ω (nearestBinary rnd p emin ((← a) * (← b)))
  lt | some a, some b => decide (a < b)
     | _, _ => false

/-- `x` is a finite number of the format. -/
def IsBinary (p : Nat) (emin : Int) (Ω : ℚ) (x : Option ℚ) : Prop :=
  ∃ n e : Int, emin ≤ e ∧ |n| ≤ 2 ^ p ∧ x = some (n * (2 : ℚ) ^ e) ∧ |n * (2 : ℚ) ^ e| ≤ Ω

/-- `rnd` rounds to a nearest integer. -/
def ToNearest (rnd : ℚ → Int) : Prop := ∀ y, |y - rnd y| ≤ 1 / 2

/-- Round to nearest, ties to even. -/
def roundEven (y : ℚ) : Int :=
  if Int.fract y < 1 / 2 then ⌊y⌋
  else if 1 / 2 < Int.fract y then ⌊y⌋ + 1
  else if ⌊y⌋ % 2 = 0 then ⌊y⌋ else ⌊y⌋ + 1

/-- The largest number of binary32. -/
def largestFloat : ℚ := ((2 ^ 24 - 1 : Int) : ℚ) * (2 : ℚ) ^ (104 : Int)

/-- IEEE 754 binary32, with rounding to nearest, ties to even. -/
def floatOps : ScalarOps (Option ℚ) := binaryOps roundEven 24 (-149) largestFloat

/-- A finite binary32 number. -/
def IsFloat : Option ℚ → Prop := IsBinary 24 (-149) largestFloat

end Nda.Spec
