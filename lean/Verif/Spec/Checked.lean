/-
Specification vocabulary for C47.
-/
import Mathlib.Algebra.Order.Group.Unbundled.Abs
import Mathlib.Algebra.Order.Ring.Int
import Verif.Model.Core

namespace Nda.Spec

/-- The distance between the first and last element of every dim, added up. -/
def totalSpan (s : List Dim) : Int := (s.map fun d => |d.extent - 1| * |d.stride|).sum

end Nda.Spec
