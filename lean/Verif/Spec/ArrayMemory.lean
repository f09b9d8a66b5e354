import Verif.Spec.ArrayCalls
/-
How often a statement asks an allocator for memory.
-/
namespace Nda
open Spec

variable {V : Type}

/-- The number of allocations for an array of shape `s`: none if its strides, where unknown ones have been
replaced, span no memory. -/
def blocksFor (s : Shape) : Nat := if 0 < s.resolve.flatExtent then 1 else 0

/-- The number of allocations an array owns. -/
def blocksOf (a : Arr) : Nat := if a.base = none then 0 else 1

/-- The allocations of `assign(other)`, where `other` is another array: the memory is used again if the shapes
are the same. -/
def blocksAssign (a o : Arr) : Nat :=
  if a.base = none ∧ o.base = none then 0
  else if a.base ≠ none ∧ a.shape = o.shape then 0
  else blocksFor o.shape

/-- The array has memory unless its shape needs none.  Arrays whose memory has been moved to another array, and
whose type has a default shape that needs memory, are the exception. -/
def Settled (a : Arr) : Prop := blocksOf a = blocksFor a.shape

instance (a : Arr) : Decidable (Settled a) := inferInstanceAs (Decidable (_ = _))

/-- The allocations of `swap`, for two arrays that own memory if they need it. -/
def blocksSwap (ty : Types V) (same : Prop) [Decidable same] (a o : Arr) : Nat :=
  if ty.propagateSwap = true ∨ ty.propagateMove = true ∨ OnHeap ty a ∧ OnHeap ty o then 0
  else if OnHeap ty o then blocksOf a + if a.shape = o.shape then 0 else blocksOf o
  else if OnHeap ty a ∧ o.alloc.allocated = false then blocksOf o + if a.shape = o.shape then 0 else blocksOf a
  else if same ∨ a.alloc.allocated = false ∧ o.alloc.allocated = false ∧ a.alloc.arena = o.alloc.arena then blocksOf o
  else blocksOf o + if a.shape = o.shape then 0 else blocksOf a + blocksOf o

/-- What the table says about `swap` is for arrays that own memory if they need it, unless pointers are exchanged. -/
def SwapSettled (ty : Types V) (w : World V) : Cmd V → Prop
  | .swap x y => ∀ a o, w.vars x = some a → w.vars y = some o →
      ty.propagateSwap = true ∨ ty.propagateMove = true ∨ OnHeap ty a ∧ OnHeap ty o ∨ Settled a ∧ Settled o
  | _ => True

/-- The allocations of a statement. -/
def blocksBy (ty : Types V) (w : World V) : Cmd V → Nat
  | .new => blocksFor ty.defaultShape
  | .newAlloc _ => blocksFor ty.defaultShape
  | .newShape s => blocksFor s
  | .newShapeAlloc s _ => blocksFor s
  | .newFill s _ => blocksFor ty.defaultShape + if ty.defaultShape.resolve = s.resolve then 0 else blocksFor s
  | .newFillAlloc s _ _ =>
      blocksFor ty.defaultShape + if ty.defaultShape.resolve = s.resolve then 0 else blocksFor s
  | .newCopy y => of y blocksOf
  | .newCopyAlloc y _ => of y fun o => blocksFor ty.defaultShape +
      if blocksFor ty.defaultShape = 0 then blocksOf o
      else if ty.defaultShape.resolve = o.shape then 0 else blocksFor o.shape
  | .newMove y => of y fun o => if TakesNew ty o then 0 else blocksFor o.shape
  | .newMoveAlloc y al => of y fun o => if SameAlloc o al then 0 else blocksFor o.shape
  | .delete _ => 0
  | .copyAssign x y => of x fun a => of y fun o =>
      if x = y then 0
      else if ty.propagateCopy = true ∧
        ¬ (a.alloc.allocated = false ∧ o.alloc.allocated = false ∧ a.alloc.arena = o.alloc.arena) then blocksOf o
      else blocksAssign a o
  | .moveAssign x y => of x fun a => of y fun o =>
      if x = y ∨ TakesAssign ty a o then 0 else blocksAssign a o
  | .assignCopy x y => of x fun a => of y fun o => if x = y then 0 else blocksAssign a o
  | .assignMove x y => of x fun a => of y fun o => if x = y then 0 else blocksAssign a o
  | .assignFill x s _ => of x fun a => if a.shape = s.resolve then 0 else blocksFor s
  | .clear _ => blocksFor ty.defaultShape
  | .reshape x s => of x fun a =>
      if a.shape = s.resolve then 0
      else blocksFor s +
        if ty.propagateMove = true ∨ a.alloc.allocated = false ∧ a.alloc.arena = ty.defaultAlloc ∧
            ¬ (0 < s.resolve.flatExtent ∧ s.resolve.flatExtent ≤ ty.inlineSize) then 0
        else blocksFor s
  | .swap x y => of x fun a => of y fun o => blocksSwap ty (x = y) a o
  | .write _ _ _ => 0
  | .makeCopy _ s _ => blocksFor s
  | .makeCopyRef _ _ _ s _ => blocksFor s
  | .makeMove _ s _ => blocksFor s
  | .makeMoveRef _ _ _ s _ => blocksFor s
  | .makeMoveRvalue y s al => of y fun o =>
      if o.shape = s ∧ SameAlloc o al then blocksOf o else blocksFor s
  | .copyRef _ _ _ _ _ _ => 0
  | .moveRef _ _ _ _ _ _ => 0
  | .forEach _ _ _ _ => 0
  | .transform _ _ _ _ => 0
where
  /-- Something about object `x`. -/
  of (x : Nat) (f : Arr → Nat) : Nat :=
    match w.vars x with
    | none => 0
    | some a => f a

/-- Number of arrays that own memory. -/
def allBlocks (w : World V) : Nat :=
  ((List.range w.nextVar).map fun x => match w.vars x with
    | none => 0
    | some a => blocksOf a).sum

/-- Number of allocations that have not been given back. -/
def heldBlocks (w : World V) : Nat :=
  ((List.range w.nextBlock).map fun b => match w.heap b with
    | none => 0
    | some _ => 1).sum

/-- Every array that needs memory has memory. -/
def AllSettled (w : World V) : Prop := ∀ x a, w.vars x = some a → Settled a

end Nda
