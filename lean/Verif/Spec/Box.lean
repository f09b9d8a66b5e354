import Verif.Model.Core
/-
Specification vocabulary: which indices a shape contains, and at which offset.
Only the data type `Dim` of the model is used, none of its functions.
-/
namespace Nda.Spec

/-- `idx` has one coordinate per dim and each lies in the half-open interval
`[min, min + extent)` of its dim (doc comment array.h:233-235, 391-394). -/
def InBox : List Dim → List Int → Prop
  | [], [] => True
  | d :: ds, i :: is => (d.min ≤ i ∧ i < d.min + d.extent) ∧ InBox ds is
  | _, _ => False

/-- The documented offset of an index: the sum over the dims of `(x - min)*stride`
(doc comments array.h:391-392, 1068-1069). -/
def offsetOf : List Dim → List Int → Int
  | d :: ds, i :: is => (i - d.min) * d.stride + offsetOf ds is
  | _, _ => 0

/-- No dim has a negative extent. -/
def NonNeg (s : List Dim) : Prop := ∀ d ∈ s, 0 ≤ d.extent

/-- Every dim has at least one index. -/
def Pos (s : List Dim) : Prop := ∀ d ∈ s, 0 < d.extent

/-- `l` lists each in-range index of `s` exactly once. -/
def Enumerates (s : List Dim) (l : List (List Int)) : Prop :=
  l.Nodup ∧ ∀ i, i ∈ l ↔ InBox s i

/-- Distinct in-range indices have distinct offsets. -/
def Injective (s : List Dim) : Prop :=
  ∀ i j, InBox s i → InBox s j → offsetOf s i = offsetOf s j → i = j

/-- The order in which the first coordinate varies fastest: the last coordinate in which
the two indices differ decides. -/
def ColexLt (a b : List Int) : Prop :=
  a.length = b.length ∧
  ∃ (k : Nat) (x y : Int), a[k]? = some x ∧ b[k]? = some y ∧ x < y ∧ ∀ j : Nat, k < j → a[j]? = b[j]?

end Nda.Spec
