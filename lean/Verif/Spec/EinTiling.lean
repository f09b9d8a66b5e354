import Verif.Spec.Ein
import Verif.Model.Ein
import Verif.Spec.Tiling
/-
Specification vocabulary for C98: how many tiles contain an index, and the loops for one element of the result.
-/
namespace Nda.Spec
variable {α : Type}

/-- What `ein_reduce(ein<is...>(C) op= rhs)` needs of the whole arrays (`EinInput`, and that its assertions hold), for a
result with distinct indices and no stride 0. -/
structure TileInput (dims : List SDim) (is : List Nat) (lb : Int) (rhs : EinExpr α) : Prop where
  input : EinInput (⟨.arr (some lb) dims, is⟩ : EinOp α) rhs
  nodup : is.Nodup
  strides : ∀ d ∈ dims, d.val.stride ≠ 0
  assert : einAssert (⟨.arr (some lb) dims, is⟩ : EinOp α) rhs = true

/-- The tile contains the index. -/
def hasIndex : List Arg → List Int → Bool
  | [], [] => true
  | .all :: t, _ :: i => hasIndex t i
  | .ivl v :: t, x :: i => decide (v.min ≤ x ∧ x < v.min + v.extent) && hasIndex t i
  | _, _ => false

/-- The number of tiles that contain the index. -/
def tilesWith (ts : List (List Arg)) (i : List Int) : Nat := ts.countP fun t => hasIndex t i

/-- `l` has the loop indices that contribute to element `r` of the result, in the order of the loops. -/
def ContributesTo (lhs : EinOp α) (rhs : EinExpr α) (r : List Int) (l : List (List Int)) : Prop :=
  l.Pairwise ColexLt ∧ ∀ i, i ∈ l ↔ LoopIndex (lhs :: leaves rhs) i ∧ pick lhs.is i = r

/-- Element `x` updated once with the values of the expression at the given loop indices; the element may be
overwritten first. -/
def updated (f : α → α → α) (init : Option α) (m : Int → α) (rhs : EinExpr α) (l : List (List Int)) (x : α) : α :=
  l.foldl (fun x i => f x (valueAt m i rhs)) (init.getD x)

end Nda.Spec
