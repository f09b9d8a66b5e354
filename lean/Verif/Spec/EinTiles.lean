import Verif.Spec.Ein
import Verif.Spec.Split
import Verif.Model.Ref
/-
Reductions over crops of the operands (C66).
-/
namespace Nda.Spec
variable {α : Type}

/-- The arguments that crop to `v` each dim addressed by loop index `k`: `a(_, v)` for `ein<i, k>(a)`. -/
def tileArgs (k : Nat) (v : Interval) (is : List Nat) : List Arg := is.map fun j => if j = k then .ivl v else .all

/-- The dims of the crop, with their types: `dim<dynamic, dynamic, Stride>` where a dim is cropped. -/
def tileDims (k : Nat) (v : Interval) (is : List Nat) (dims : List SDim) : List SDim :=
  List.zipWith (fun j d => if j = k then ⟨⟨dynamic, dynamic, d.ty.stride⟩, ⟨v.min, v.extent, d.val.stride⟩⟩ else d)
    is dims

/-- `ein<Is...>(a(...))` where `a` is cropped to `v` in the dims addressed by loop index `k`. -/
def tileOp (k : Nat) (v : Interval) : EinOp α → EinOp α
  | ⟨.arr base dims, is⟩ =>
    ⟨.arr (ArrayRef.crop ⟨base, dims.map SDim.val⟩ (tileArgs k v is)).base (tileDims k v is dims), is⟩
  | o => o

/-- The expression with all operands cropped. -/
def tileExpr (k : Nat) (v : Interval) : EinExpr α → EinExpr α
  | .op o => .op (tileOp k v o)
  | .unary f e => .unary f (tileExpr k v e)
  | .binary f a b => .binary f (tileExpr k v a) (tileExpr k v b)

/-- The crops of an operand to `v` are in range. -/
def TileInRange (k : Nat) (v : Interval) (o : EinOp α) : Prop :=
  ∀ (p : Nat) (d : Dim), o.is[p]? = some k → (einDims o.op)[p]? = some d →
    d.min ≤ v.min ∧ v.min + v.extent ≤ d.min + d.extent

end Nda.Spec
