import Verif.Model.Core
/-
Specification vocabulary for C24-C26.
-/
namespace Nda.Spec

/-- `x` is one of the indices of `v`. -/
def InIvl (v : Interval) (x : Int) : Prop := v.min ≤ x ∧ x < v.min + v.extent

/-- `l` is a sequence of consecutive non-empty intervals leading from `m` to just before `e`. -/
def Tiles : Int → List Interval → Int → Prop
  | m, [], e => m = e
  | m, i :: l, e => i.min = m ∧ 0 < i.extent ∧ Tiles (m + i.extent) l e

/-- `q` is the ceiling of `r / n`. -/
def IsCeilDiv (q r n : Int) : Prop := (q - 1) * n < r ∧ r ≤ q * n

end Nda.Spec
