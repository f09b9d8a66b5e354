import Verif.Spec.Ein
/-
Specification of the bounds checks of Einstein reductions (C92).  Only the data types of the model are used.
-/
namespace Nda.Spec
variable {α : Type}

/-- Every index of `d0` is an index of `d` (or `d0` is empty and lies between the ends of `d`). -/
def Covers (d d0 : Dim) : Prop := d.min ≤ d0.min ∧ d0.min + d0.extent ≤ d.min + d.extent

/-- The two dims have the same bounds. -/
def EqBounds (d e : Dim) : Prop := d.min = e.min ∧ d.extent = e.extent

/-- The dim of an operand that is addressed by loop index `k`; the first, if there are several. -/
def dimFor (k : Nat) (o : EinOp α) : Option Dim :=
  ((o.is.zip (einDims o.op)).find? fun p => p.1 == k).map Prod.snd

/-- What the bounds of the operands of `lhs op= rhs` must satisfy.  Along an index of the result, the operands have at
least the indices of the result, but if the result has stride 0 there, they have exactly its indices.  Along any other
index the operands have the same bounds. -/
def ReduceBounds (lhs : EinOp α) (rhs : EinExpr α) : Prop :=
  ∀ k, ∀ o ∈ leaves rhs, ∀ d, dimFor k o = some d →
    (∀ d0, dimFor k lhs = some d0 → (d0.stride = 0 → EqBounds d d0) ∧ (d0.stride ≠ 0 → Covers d d0)) ∧
    (dimFor k lhs = none → ∀ o' ∈ leaves rhs, ∀ d', dimFor k o' = some d' → EqBounds d d')

/-- What the bounds of the operands of `make_ein_sum<T, ris...>(e)` must satisfy when the shape of the result is
inferred: along every index of the result, the operands have at least the indices of the first operand with that
index. -/
def InferBounds (ris : List Nat) (e : EinExpr α) : Prop :=
  ∀ k ∈ ris, ∀ d0, firstUse k (leaves e) = some d0 → ∀ o ∈ leaves e, ∀ d, dimFor k o = some d → Covers d d0

end Nda.Spec
