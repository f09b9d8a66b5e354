import Verif.Model.TestPattern
import Verif.Spec.Box
/-
Specification vocabulary for C106.
-/
namespace Nda.Spec

/-- The number for an index: 1, 30, 1000, 10000 and 1000000 times its components. -/
def patternNumber : List Int → Int
  | [] => 0
  | [x] => x
  | [x, y] => x + 30 * y
  | [x, y, z] => x + 30 * y + 1000 * z
  | [x, y, z, w] => x + 30 * y + 1000 * z + 10000 * w
  | [x, y, z, w, v] => x + 30 * y + 1000 * z + 10000 * w + 1000000 * v
  | _ => 0

/-- The largest differences between numbers of indices in the first dims stay below the factor of the next dim. -/
def NoCarry : List Int → Prop
  | [] | [_] => True
  | [e0, _] => e0 - 1 < 30
  | [e0, e1, _] => e0 - 1 < 30 ∧ e0 - 1 + 30 * (e1 - 1) < 1000
  | [e0, e1, e2, _] => e0 - 1 < 30 ∧ e0 - 1 + 30 * (e1 - 1) < 1000 ∧ e0 - 1 + 30 * (e1 - 1) + 1000 * (e2 - 1) < 10000
  | [e0, e1, e2, e3, _] => e0 - 1 < 30 ∧ e0 - 1 + 30 * (e1 - 1) < 1000 ∧
      e0 - 1 + 30 * (e1 - 1) + 1000 * (e2 - 1) < 10000 ∧
      e0 - 1 + 30 * (e1 - 1) + 1000 * (e2 - 1) + 10000 * (e3 - 1) < 1000000
  | _ => False

end Nda.Spec
