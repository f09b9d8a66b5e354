import Mathlib.Algebra.Order.Ring.Int
import Mathlib.Algebra.Order.Group.Unbundled.Abs
import Verif.Model.Core
/-
When the arithmetic of loops fits into `w` bits.
-/
namespace Nda.Spec

/-- The product of the extents, with those below 1 taken as 1. -/
def extentWeight : List Dim → Int
  | [] => 1
  | d :: s => max d.extent 1 * extentWeight s

/-- The sum, over the dims, of the distance of the min from zero times the extents (at least 1) of the
other dims. -/
def minReach : List Dim → Int
  | [] => 0
  | d :: s => |d.min| * extentWeight s + max d.extent 1 * minReach s

/-- Quantities that are formed while optimizing a shape. -/
structure FuseFits (w : Nat) (s : List Dim) : Prop where
  /-- Extents are not negative. -/
  nonneg : ∀ d ∈ s, 0 ≤ d.extent
  /-- A dim steps over less than half of the address range. -/
  span : ∀ d ∈ s, |d.stride * d.extent| < 2 ^ (w - 1)
  /-- Extents of fused dims. -/
  extents : extentWeight s < 2 ^ (w - 1)
  /-- Mins of fused dims. -/
  mins : minReach s < 2 ^ (w - 1)

/-- How far, in memory, the first element of `dst` lies from the first element of `src`: the sum over the
dims of the absolute values. -/
def startReach : List Dim → List Dim → Int
  | s :: src, d :: dst => |(d.min - s.min) * s.stride| + startReach src dst
  | _, _ => 0

/-- Each interval of `dst` lies in that of `src`. -/
def InsideOf : List Dim → List Dim → Prop
  | [], [] => True
  | s :: src, d :: dst => (s.min ≤ d.min ∧ d.min + d.extent ≤ s.min + s.extent) ∧ InsideOf src dst
  | _, _ => False

end Nda.Spec
