import Verif.Spec.Ein
/-
Renaming the loop indices of a reduction.
-/
namespace Nda.Spec
variable {α : Type}

/-- The operand with every loop index `k` replaced by `σ k`. -/
def renameOp (σ : Nat → Nat) (o : EinOp α) : EinOp α := ⟨o.op, o.is.map σ⟩

/-- The expression with every loop index `k` replaced by `σ k`. -/
def renameExpr (σ : Nat → Nat) : EinExpr α → EinExpr α
  | .op o => .op (renameOp σ o)
  | .unary f e => .unary f (renameExpr σ e)
  | .binary f a b => .binary f (renameExpr σ a) (renameExpr σ b)

/-- `o'` is `o` with its dims, and the loop indices that address them, written in the order `P`: what
`ein<j, i>(transpose<1, 0>(A))` is to `ein<i, j>(A)`. -/
def TransposedOp (P : List Nat) (o o' : EinOp α) : Prop :=
  P.Perm (List.range o.is.length) ∧
  ∃ base dims, o.op = .arr base dims ∧ dims.length = o.is.length ∧
    o' = ⟨.arr base (P.map fun p => dims.getD p default), P.map fun p => o.is.getD p 0⟩

/-- The same expression, except that operands may be transposed together with their loop indices. -/
def SameButTransposed : EinExpr α → EinExpr α → Prop
  | .op o, .op o' => o' = o ∨ ∃ P, TransposedOp P o o'
  | .unary f e, .unary g e' => g = f ∧ SameButTransposed e e'
  | .binary f a b, .binary g a' b' => g = f ∧ SameButTransposed a a' ∧ SameButTransposed b b'
  | _, _ => False

end Nda.Spec
