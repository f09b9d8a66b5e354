import Mathlib.Algebra.BigOperators.Group.Finset.Basic
import Mathlib.Algebra.Order.Field.Basic
/-
Specification vocabulary for reconstruction kernels (C62).
-/
namespace Nda.Spec
variable {K : Type} [Field K] [LinearOrder K]

/-- The kernel is the same on both sides. -/
def Symmetric (k : K → K) : Prop := ∀ s, k (-s) = k s

/-- The kernel is zero at distance `R` and beyond. -/
def VanishesFrom (k : K → K) (R : K) : Prop := ∀ s, R ≤ |s| → k s = 0

/-- Reconstruction at a sample gives the sample. -/
def Interpolating (k : K → K) : Prop := k 0 = 1 ∧ ∀ n : ℤ, n ≠ 0 → k (n : K) = 0

/-- Reconstructing the function `f` from its values at the integers gives `f`, at every position; the
samples at distance less than `R` suffice, and others do no harm. -/
def Reconstructs (k : K → K) (R : K) (f : K → K) : Prop :=
  ∀ s, ∀ samples : Finset ℤ, (∀ n : ℤ, |s - (n : K)| < R → n ∈ samples) →
    ∑ n ∈ samples, f (n : K) * k (s - (n : K)) = f s

end Nda.Spec
