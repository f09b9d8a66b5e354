import Verif.Spec.Box
import Verif.Spec.Static
import Verif.Model.Ein
/-
Specification of Einstein reductions (C41–C43).  Only the data types of the model are used.
-/
namespace Nda.Spec
variable {α : Type}

/-- The coordinates of `i` named by an index list: how `ein<Is...>(op)` addresses its operand. -/
def pick (is : List Nat) (i : List Int) : List Int := is.map fun k => i.getD k 0

/-- The dims of an array operand. -/
def einDims : EinSrc α → List Dim
  | .arr _ dims => dims.map SDim.val
  | .fn _ => []

/-- What the C++ types of an operand guarantee: one index per dim, and the values of the dims agree
with their compile-time parameters. -/
def OpTyped (o : EinOp α) : Prop :=
  match o.op with
  | .arr _ dims => o.is.length = dims.length ∧ ∀ d ∈ dims, Fits d.ty d.val
  | .fn _ => True

/-- Loop index `i` addresses an element of the operand. -/
def OpInRange (o : EinOp α) (i : List Int) : Prop :=
  match o.op with
  | .arr _ dims => InBox (dims.map SDim.val) (pick o.is i)
  | .fn _ => True

/-- Dims of one operand that are addressed by the same loop index have the same bounds.  This is so
when the operand repeats no index, and for `ein<i, i>(A)` with square `A`. -/
def OpConsistent (o : EinOp α) : Prop :=
  ∀ (p q k : Nat) (d e : Dim), o.is[p]? = some k → o.is[q]? = some k →
    (einDims o.op)[p]? = some d → (einDims o.op)[q]? = some e → d.min = e.min ∧ d.extent = e.extent

/-- An operand with at least one element has memory. -/
def OpBacked (o : EinOp α) : Prop :=
  match o.op with
  | .arr base dims => base = none → ∀ i, ¬ InBox (dims.map SDim.val) i
  | .fn _ => True

/-- The operand uses loop index `k` for one of its dims. -/
def OpUses (o : EinOp α) (k : Nat) : Prop :=
  match o.op with
  | .arr _ _ => k ∈ o.is
  | .fn _ => False

/-- One more than the largest index in any of the lists. -/
def loopRank (ops : List (EinOp α)) : Nat :=
  ops.foldr (fun o n => o.is.foldr (fun k n => max (k + 1) n) n) 0

/-- The loop indices of a reduction: all tuples for which every operand is in range.  A
coordinate that addresses no dim is 0. -/
def LoopIndex (ops : List (EinOp α)) (i : List Int) : Prop :=
  i.length = loopRank ops ∧ (∀ o ∈ ops, OpInRange o i) ∧
  ∀ k, k < loopRank ops → (∀ o ∈ ops, ¬ OpUses o k) → i[k]? = some 0

/-- The value of an expression for a loop index. -/
def valueAt (m : Int → α) (i : List Int) : EinExpr α → α
  | .op ⟨.arr base dims, is⟩ => m (base.getD 0 + offsetOf (dims.map SDim.val) (pick is i))
  | .op ⟨.fn f, is⟩ => f (pick is i)
  | .unary f e => f (valueAt m i e)
  | .binary f a b => f (valueAt m i a) (valueAt m i b)

/-- The leaves of an expression. -/
def leaves : EinExpr α → List (EinOp α)
  | .op o => [o]
  | .unary _ e => leaves e
  | .binary _ a b => leaves a ++ leaves b

/-- Address `a` is that of an element of the operand. -/
def OpElement (o : EinOp α) (a : Int) : Prop :=
  match o.op with
  | .arr base dims => ∃ b i, base = some b ∧ InBox (dims.map SDim.val) i ∧
      a = b + offsetOf (dims.map SDim.val) i
  | .fn _ => False

/-- Inputs on which a reduction `lhs op= rhs` is meaningful: operands as the C++ types and the
array classes provide them, no negative extents, dims sharing a loop index within one operand
agree, distinct elements of the result have distinct addresses, and no element of an operand is
an element of the result. -/
structure EinInput (lhs : EinOp α) (rhs : EinExpr α) : Prop where
  typed : ∀ o ∈ lhs :: leaves rhs, OpTyped o
  nonNeg : ∀ o ∈ lhs :: leaves rhs, NonNeg (einDims o.op)
  consistent : ∀ o ∈ lhs :: leaves rhs, OpConsistent o
  backed : ∀ o ∈ lhs :: leaves rhs, OpBacked o
  injective : Injective (einDims lhs.op)
  separate : ∀ o ∈ leaves rhs, ∀ a, OpElement lhs a → ¬ OpElement o a

/-- The first dim, in the order the operands are written, that is addressed by loop index `k`. -/
def firstUse (k : Nat) (ops : List (EinOp α)) : Option Dim :=
  ops.findSome? fun o => ((o.is.zip (einDims o.op)).find? fun p => p.1 == k).map Prod.snd

/-! ### Matrices and vectors, for the examples in the documentation (ein_reduce.h:405-417) -/

/-- `ein<i, j>(A)` for a matrix. -/
def einMat (base : Int) (d0 d1 : SDim) (i j : Nat) : EinOp α := ⟨.arr (some base) [d0, d1], [i, j]⟩

/-- `ein<i>(x)` for a vector. -/
def einVec (base : Int) (d0 : SDim) (i : Nat) : EinOp α := ⟨.arr (some base) [d0], [i]⟩

/-- `ein<>(s)` for a scalar. -/
def einScal (base : Int) : EinOp α := ⟨.arr (some base) [], []⟩

/-- `A(x, y)`. -/
def matAt (m : Int → α) (base : Int) (d0 d1 : SDim) (x y : Int) : α :=
  m (base + (x - d0.val.min) * d0.val.stride + (y - d1.val.min) * d1.val.stride)

/-- `v(x)`. -/
def vecAt (m : Int → α) (base : Int) (d0 : SDim) (x : Int) : α :=
  m (base + (x - d0.val.min) * d0.val.stride)

/-- The indices of a dim. -/
def inDim (d : SDim) (x : Int) : Prop := d.val.min ≤ x ∧ x < d.val.min + d.val.extent

/-- The two dims have the same indices. -/
def SameBounds (d e : SDim) : Prop := d.val.min = e.val.min ∧ d.val.extent = e.val.extent

/-- A dim as a program can have it: its values agree with its type, and its extent is not negative. -/
def GoodDim (d : SDim) : Prop := Fits d.ty d.val ∧ 0 ≤ d.val.extent

/-- Distinct elements of the result have distinct addresses, and none is an element of an operand. -/
def GoodResult (lhs : EinOp α) (rhs : EinExpr α) : Prop :=
  Injective (einDims lhs.op) ∧ ∀ o ∈ leaves rhs, ∀ a, OpElement lhs a → ¬ OpElement o a

end Nda.Spec
