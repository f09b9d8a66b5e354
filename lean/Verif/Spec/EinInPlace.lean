import Verif.Spec.Ein
/-
Specification vocabulary for Einstein reductions whose result has elements in common with operands (C94).
-/
namespace Nda.Spec
variable {α : Type}

/-- Loop index `i` makes the operand refer to address `a`. -/
def Refers (o : EinOp α) (i : List Int) (a : Int) : Prop :=
  match o.op with
  | .arr base dims => ∃ b, base = some b ∧ a = b + offsetOf (dims.map SDim.val) (pick o.is i)
  | .fn _ => False

/-- Operands as the C++ types and the array classes provide them, no negative extents, dims sharing a loop index within
one operand agree, and distinct elements of the result have distinct addresses. -/
structure EinOperands (lhs : EinOp α) (rhs : EinExpr α) : Prop where
  typed : ∀ o ∈ lhs :: leaves rhs, OpTyped o
  nonNeg : ∀ o ∈ lhs :: leaves rhs, NonNeg (einDims o.op)
  consistent : ∀ o ∈ lhs :: leaves rhs, OpConsistent o
  backed : ∀ o ∈ lhs :: leaves rhs, OpBacked o
  injective : Injective (einDims lhs.op)

/-- No element is read after it was written. -/
def NotReadAfter (lhs : EinOp α) (rhs : EinExpr α) : Prop :=
  ∀ o ∈ leaves rhs, ∀ i j, LoopIndex (lhs :: leaves rhs) i → LoopIndex (lhs :: leaves rhs) j → ColexLt j i →
    ∀ a, Refers lhs j a → ¬ Refers o i a

/-- Nothing is summed: the result has every index. -/
def NoSum (lhs : EinOp α) (rhs : EinExpr α) : Prop := ∀ o ∈ leaves rhs, ∀ k, OpUses o k → k ∈ lhs.is

end Nda.Spec
