import Verif.Model.Mixed
import Verif.Spec.Ein
/-
Specification vocabulary for C89: values of expressions with operands of several types.
-/
namespace Nda.Spec

variable {τ : Type} {C : τ → Type}

/-- The leaves of an expression, with their types. -/
def typedLeaves {t : τ} : MixedExpr C t → List (Σ t, EinOp (C t))
  | .op (t := t) o => [⟨t, o⟩]
  | .unary _ e => typedLeaves e
  | .binary _ a b => typedLeaves a ++ typedLeaves b

/-- The operand without its values. -/
def forget {α : Type} : EinOp α → EinOp Unit
  | ⟨.arr base dims, is⟩ => ⟨.arr base dims, is⟩
  | ⟨.fn _, is⟩ => ⟨.fn fun _ => (), is⟩

/-- All operands, the left-hand side first. -/
def shapesOf {l r : τ} (lhs : EinOp (C l)) (rhs : MixedExpr C r) : List (EinOp Unit) :=
  forget lhs :: (typedLeaves rhs).map fun p => forget p.2

/-- The value of an expression for a loop index, if it is defined. -/
def mixedValue (m : (t : τ) → Int → C t) (i : List Int) : {t : τ} → MixedExpr C t → Option (C t)
  | t, .op ⟨.arr base dims, is⟩ => some (m t (base.getD 0 + offsetOf (dims.map SDim.val) (pick is i)))
  | _, .op ⟨.fn f, is⟩ => some (f (pick is i))
  | _, .unary f e => (mixedValue m i e).bind f
  | _, .binary f a b => (mixedValue m i a).bind fun x => (mixedValue m i b).bind fun y => f x y

/-- Inputs on which a reduction is meaningful, as `EinInput`; only operands of the type of the result could share
elements with it. -/
structure MixedInput {l r : τ} (lhs : EinOp (C l)) (rhs : MixedExpr C r) : Prop where
  typed : ∀ o ∈ shapesOf lhs rhs, OpTyped o
  nonNeg : ∀ o ∈ shapesOf lhs rhs, NonNeg (einDims o.op)
  consistent : ∀ o ∈ shapesOf lhs rhs, OpConsistent o
  backed : ∀ o ∈ shapesOf lhs rhs, OpBacked o
  injective : Injective (einDims lhs.op)
  separate : ∀ o ∈ typedLeaves rhs, o.1 = l → ∀ a, OpElement lhs a → ¬ OpElement o.2 a

/-- Applying a step to all values of a list, as long as it is defined. -/
def foldDefined {α β : Type} (f : α → β → Option α) : α → List β → Option α
  | x, [] => some x
  | x, y :: l => (f x y).bind fun z => foldDefined f z l

/-- Element types for the example of dot products. -/
inductive Elem where
  | int8
  | int32
deriving DecidableEq

/-- The value, if the type `int` of 32 bits can represent it (arithmetic on `int8_t` is done in `int`). -/
def asInt32 (x : Int) : Option Int := if -2147483648 ≤ x ∧ x ≤ 2147483647 then some x else none

/-- `int` addition; overflow is undefined. -/
def addInt32 (x y : Int) : Option Int := asInt32 (x + y)

/-- `int` multiplication; overflow is undefined. -/
def mulInt32 (x y : Int) : Option Int := asInt32 (x * y)

end Nda.Spec
