import Verif.Spec.Array
/-
Specification of which statements keep references to the elements of an array valid (C76).
-/
namespace Nda.Spec

variable {V : Type}

/-- The statement gives back the memory of array `x`, which is `a`. -/
def Lost (ty : Types V) (w : World V) (x : Nat) (a : Arr) : Cmd V → Prop
  | .delete y => y = x
  | .clear y => y = x
  | .assignFill y s _ => y = x ∧ a.shape ≠ s.resolve
  | .reshape y s => y = x ∧ a.shape ≠ s.resolve
  | .assignCopy y z => y = x ∧ z ≠ x ∧ With w z fun o => o.shape ≠ a.shape
  | .assignMove y z => y = x ∧ z ≠ x ∧ With w z fun o => o.shape ≠ a.shape
  | .copyAssign y z => y = x ∧ z ≠ x ∧ With w z fun o => o.shape ≠ a.shape ∨
      ty.propagateCopy = true ∧ ¬ (a.alloc.allocated = false ∧ o.alloc.allocated = false ∧ a.alloc.arena = o.alloc.arena)
  | .moveAssign y z => y = x ∧ z ≠ x ∧ With w z fun o => o.shape ≠ a.shape ∧ ¬ TakesAssign ty a o
  | _ => False

/-- The one of `y` and `z` that is not `x`. -/
def otherOf (y z x : Nat) : Nat := if x = y then z else if x = z then y else x

/-- The array that has the elements of array `x`, which is `a`, after the statement. -/
def KeptBy (ty : Types V) (w : World V) (x : Nat) (a : Arr) : Cmd V → Nat → Prop
  | .newMove y, n => (y = x ∧ TakesNew ty a → n = w.nextVar) ∧ (¬ (y = x ∧ TakesNew ty a) → n = x)
  | .newMoveAlloc y al, n => (y = x ∧ SameAlloc a al → n = w.nextVar) ∧ (¬ (y = x ∧ SameAlloc a al) → n = x)
  | .moveAssign y z, n => ((With w y fun c => With w z fun o => TakesAssign ty c o) → n = otherOf y z x) ∧
      (¬ (With w y fun c => With w z fun o => TakesAssign ty c o) → n = x)
  | .swap y z, n => n = otherOf y z x
  | _, n => n = x

/-- `swap` exchanges the memory of `a` and `o`. -/
def SwapsMemory (ty : Types V) (a o : Arr) : Prop :=
  ty.propagateSwap = true ∨ ty.propagateMove = true ∨
    (a.alloc.allocated = false ∧ o.alloc.allocated = false ∧ a.alloc.arena = o.alloc.arena ∧ ty.defaultAlloc = o.alloc.arena)

/-- The statement destroys, assigns to, moves from or swaps array `x` itself. -/
def Retargets (x : Nat) : Cmd V → Prop
  | .newMove y => y = x
  | .newMoveAlloc y _ => y = x
  | .delete y => y = x
  | .copyAssign y _ => y = x
  | .moveAssign y z => y = x ∨ z = x
  | .assignCopy y _ => y = x
  | .assignMove y _ => y = x
  | .assignFill y _ _ => y = x
  | .clear y => y = x
  | .reshape y _ => y = x
  | .swap y z => y = x ∨ z = x
  | _ => False

end Nda.Spec
