import Verif.Model.Rational
import Mathlib.Data.Rat.Defs
import Mathlib.Algebra.Order.Ring.Abs
import Mathlib.Algebra.Order.Ring.Int
/-
Specification vocabulary for class `rational` (C45).
-/
namespace Nda.Spec

/-- The rational number an object stands for. -/
def value (r : Rational) : ℚ := (r.n.toInt : ℚ) / (r.d.toInt : ℚ)

/-- Positive denominator, lowest terms. -/
def Canonical (r : Rational) : Prop := 0 < r.d.toInt ∧ Int.gcd r.n.toInt r.d.toInt = 1

/-- Numerator and denominator need at most 31 bits besides the sign. -/
def Small (r : Rational) : Prop := |r.n.toInt| < 2 ^ 31 ∧ |r.d.toInt| < 2 ^ 31

end Nda.Spec
