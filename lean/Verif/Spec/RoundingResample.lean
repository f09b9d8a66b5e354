import Verif.Spec.RoundingBinary
import Verif.Spec.ResampleImage
/-
Specification vocabulary for the rounding errors of resampling (C84). Nothing here is about the code.
-/
namespace Nda.Spec
variable {F : Type}

/-- An arithmetic as in `Rounds`, with differences, quotients, which may underflow as products do, conversions of
integers, minima, and a test for zero. -/
structure RoundsFloat (o : FloatOps F) (Finite : F → Prop) (val : F → ℚ) (u η Ω : ℚ) : Prop where
  unit : 0 ≤ u
  underflow : 0 ≤ η
  zero : Finite o.zero ∧ val o.zero = 0
  add : ∀ a b, Finite a → Finite b → |val a + val b| ≤ Ω →
    Finite (o.add a b) ∧ |val (o.add a b) - (val a + val b)| ≤ u * |val a + val b|
  mul : ∀ a b, Finite a → Finite b → |val a * val b| ≤ Ω →
    Finite (o.mul a b) ∧ |val (o.mul a b) - val a * val b| ≤ u * |val a * val b| + η
  div : ∀ a b, Finite a → Finite b → val b ≠ 0 → |val a / val b| ≤ Ω →
    Finite (o.div a b) ∧ |val (o.div a b) - val a / val b| ≤ u * |val a / val b| + η
  nonZero : ∀ a, Finite a → (o.nonZero a = true ↔ val a ≠ 0)
  sub : ∀ a b, Finite a → Finite b → |val a - val b| ≤ Ω →
    Finite (o.sub a b) ∧ |val (o.sub a b) - (val a - val b)| ≤ u * |val a - val b|
  ofIndex : ∀ i : Int, |(i : ℚ)| ≤ Ω → Finite (o.ofIndex i) ∧ |val (o.ofIndex i) - i| ≤ u * |(i : ℚ)|
  one : Finite o.one ∧ val o.one = 1
  min : ∀ a b, Finite a → Finite b → Finite (o.min a b) ∧ val (o.min a b) = Min.min (val a) (val b)

/-- The sum of the values of a kernel on an interval. -/
def weightSum (val : F → ℚ) (v : Interval) (w : Int → F) : ℚ := ∑ i ∈ spanOf v, val (w i)

/-- How much larger the magnitudes of the values of a kernel are than their sum: 1 if no value is negative. -/
def condition (val : F → ℚ) (v : Interval) (w : Int → F) : ℚ := (∑ i ∈ spanOf v, |val (w i)|) / |weightSum val v w|

/-- Bound of the relative error of the sum of the `taps` values of a kernel. -/
def sumError (u : ℚ) (taps : Nat) (cond : ℚ) : ℚ := ((1 + u) ^ taps - 1) * cond

/-- Bound of the relative error of a value divided by this sum. -/
def tapError (u : ℚ) (taps : Nat) (cond : ℚ) : ℚ := (u + sumError u taps cond) / (1 - sumError u taps cond)

/-- Bound of the magnitude, with errors, of the weighted sum of values that are at most `y` in magnitude, with
errors. -/
def stageBound (u η : ℚ) (taps : Nat) (cond y : ℚ) : ℚ :=
  (1 + u) ^ taps * ((1 + u) * y * ((1 + tapError u taps cond) * cond + taps * η) + taps * η)

/-- The values of a kernel on an interval: they are finite, non-zero only on `taps` consecutive positions, and neither
adding them up nor dividing them by their sum overflows. -/
structure GoodWeights (Finite : F → Prop) (val : F → ℚ) (u Ω : ℚ) (taps : Nat) (v : Interval) (w : Int → F) : Prop where
  finite : ∀ i, InInterval v i → Finite (w i)
  support : ∀ i j, InInterval v i → InInterval v j → val (w i) ≠ 0 → val (w j) ≠ 0 → j - i < taps
  sum : weightSum val v w ≠ 0
  small : sumError u taps (condition val v w) < 1
  size : (1 + u) ^ taps * ∑ i ∈ spanOf v, |val (w i)| ≤ Ω
  quotient : condition val v w / (1 - sumError u taps (condition val v w)) ≤ Ω

/-- The exact value of pixel `(x, y, c)` of an image resampled with the kernels `wx` and `wy`: a weighted mean of the
pixels of the input. -/
def idealPixel (val : F → ℚ) (in_ : Image3) (bi : Int) (m : Int → F) (wx wy : Int → F) (c : Int) : ℚ :=
  (∑ i ∈ spanOf in_.x.val.toInterval, ∑ j ∈ spanOf in_.y.val.toInterval,
    val (wx i) * val (wy j) * val (m (pixelAddress in_ bi i j c))) /
    (weightSum val in_.x.val.toInterval wx * weightSum val in_.y.val.toInterval wy)

/-- Bound of the relative error of the quotient of two integers. -/
def quotientError (u : ℚ) : ℚ := (1 + u) ^ 2 / (1 - u) - 1

/-- Bound of the error of the difference of an input position and the position of an output, if the sum of their
magnitudes is `b`. -/
def distanceError (u η b : ℚ) : ℚ := ((1 + u) * (1 + quotientError u) - 1) * b + (1 + u) * η

/-- Bound of the error of the position at which a kernel is evaluated. -/
def positionError (u η b : ℚ) : ℚ :=
  (b + distanceError u η b) * (quotientError u + η + u) + distanceError u η b + η

/-- IEEE 754 arithmetic of a binary format, with quotients. A quotient by zero is not finite. -/
def binaryFloatOps (rnd : ℚ → Int) (p : Nat) (emin : Int) (Ω : ℚ) : FloatOps (Option ℚ) where
  zero := some 0
  one := some 1
  ofIndex i := finiteOr Ω (nearestBinary rnd p emin i)
  add a b := do finiteOr Ω (nearestBinary rnd p emin ((← a) + (← b)))
  sub a b := do finiteOr Ω (nearestBinary rnd p emin ((← a) - (← b)))
  mul a b := do finiteOr Ω (nearestBinary rnd p emin ((← a) * (← b)))
  div a b := do if (← b) = 0 then none else finiteOr Ω (nearestBinary rnd p emin ((← a) / (← b)))
  min | some a, some b => some (if b < a then b else a)
      | _, _ => none
  nonZero | some a => decide (a ≠ 0)
          | none => true

/-- IEEE 754 binary32, with quotients. -/
def float32 : FloatOps (Option ℚ) := binaryFloatOps roundEven 24 (-149) largestFloat

/-- The linear kernel in binary32: `max(0, 1 - |s|)`, where the difference is rounded. -/
def linearFloat (s : Option ℚ) : Option ℚ := (float32.sub (some 1) (s.map abs)).map fun x => max 0 x

end Nda.Spec
