import Verif.Model.Core
/-
Specification vocabulary for matrix and image traversal.
-/
namespace Nda.Spec

/-- Row major order of matrix indices: `j` varies fastest. -/
def RowMajorLt (a b : List Int) : Prop :=
  ∃ i j i' j', a = [i, j] ∧ b = [i', j'] ∧ (i < i' ∨ (i = i' ∧ j < j'))

/-- Image order: `c` varies fastest, then `x`, then `y`. -/
def ImageLt (a b : List Int) : Prop :=
  ∃ x y c x' y' c', a = [x, y, c] ∧ b = [x', y', c'] ∧
    (y < y' ∨ (y = y' ∧ (x < x' ∨ (x = x' ∧ c < c'))))

end Nda.Spec
