import Verif.Spec.Array
import Verif.Spec.Ein
import Verif.Model.EinArray
/-
Specification of Einstein reductions in programs with arrays (C72).
-/
namespace Nda.Spec
variable {V : Type}

/-- The views an expression reads. -/
def termRefs : EinTerm V → List EinRef
  | .ref r => [r]
  | .fn _ _ => []
  | .unary _ e => termRefs e
  | .binary _ a b => termRefs a ++ termRefs b

/-- The value of an expression for a loop index, in terms of the elements of views. -/
def termAt (w : World V) (i : List Int) : EinTerm V → Except Fault V
  | .ref r => refElem w r.x (r.dims.map SDim.val) r.off (pick r.is i)
  | .fn f is => .ok (f (pick is i))
  | .unary f e => (termAt w i e).map f
  | .binary f a b => (termAt w i a).bind fun x => (termAt w i b).map (f x)

/-- A view as a program can have it: the array exists, the elements of the view are elements of the array, there is one index per
dim, the dims agree with their types, and dims that share a loop index have the same bounds. -/
structure RefOk (w : World V) (r : EinRef) : Prop where
  part : ∃ a, w.vars r.x = some a ∧ PartOk a (r.dims.map SDim.val) r.off
  typed : r.is.length = r.dims.length ∧ ∀ d ∈ r.dims, Fits d.ty d.val
  consistent : ∀ (p q k : Nat) (d e : SDim), r.is[p]? = some k → r.is[q]? = some k →
    r.dims[p]? = some d → r.dims[q]? = some e → d.val.min = e.val.min ∧ d.val.extent = e.val.extent

/-- The two views have no element in common. -/
def Apart (r q : EinRef) : Prop :=
  r.x = q.x → ∀ i j, InBox (r.dims.map SDim.val) i → InBox (q.dims.map SDim.val) j →
    r.off + offsetOf (r.dims.map SDim.val) i ≠ q.off + offsetOf (q.dims.map SDim.val) j

/-- What a program must make sure of before `ein_reduce(lhs op= rhs)`: the operands are views of arrays, different indices of the
result are different elements, and no element of the result is an operand. -/
structure EinArrays (w : World V) (lhs : EinRef) (rhs : EinTerm V) : Prop where
  refs : ∀ r ∈ lhs :: termRefs rhs, RefOk w r
  injective : Injective (lhs.dims.map SDim.val)
  apart : ∀ r ∈ termRefs rhs, Apart lhs r

/-- The loop indices of `ein_reduce(lhs op= rhs)`. -/
def TermIndex (lhs : EinRef) (rhs : EinTerm V) (i : List Int) : Prop :=
  LoopIndex (lhs.op :: leaves rhs.expr) i

/-- All dims addressed by loop index `k`, in any view, have min `(B k).1` and extent `(B k).2`. -/
def SameLoops (B : Nat → Int × Int) (rs : List EinRef) : Prop :=
  ∀ r ∈ rs, ∀ (p k : Nat) (d : SDim), r.is[p]? = some k → r.dims[p]? = some d →
    d.val.min = (B k).1 ∧ d.val.extent = (B k).2

end Nda.Spec
