import Verif.Spec.Array
/-
Which member functions of the element type a statement calls.
-/
namespace Nda
open Spec

variable {V : Type}

/-- The number of indices of a shape: the product of the extents, where a negative extent counts as 0. -/
def volume (s : Shape) : Nat := (s.map fun d => d.extent.toNat).prod

/-- The number of elements an array has in memory. -/
def owned (a : Arr) : Nat := if a.base = none then 0 else volume a.shape

/-- The number of indices that are in range of two shapes. -/
def common (s t : Shape) : Nat :=
  (List.zipWith (fun d e => (min (d.min + d.extent) (e.min + e.extent) - max d.min e.min).toNat) s t).prod

/-- `n` calls of the same function. -/
def times (n : Nat) (c : Call) : List Call := List.replicate n c

/-- The array does not use the buffer of its allocator, and its allocator is equal to a default constructed
one. -/
def OnHeap (ty : Types V) (a : Arr) : Prop := a.alloc.allocated = false ∧ a.alloc.arena = ty.defaultAlloc

instance (ty : Types V) (a : Arr) : Decidable (OnHeap ty a) := inferInstanceAs (Decidable (_ ∧ _))

/-- The calls of a statement. -/
def callsOf (ty : Types V) (w : World V) : Cmd V → List Call
  | .new => times (volume ty.defaultShape) .defaultConstruct
  | .newAlloc _ => times (volume ty.defaultShape) .defaultConstruct
  | .newShape s => times (volume s) .defaultConstruct
  | .newShapeAlloc s _ => times (volume s) .defaultConstruct
  | .newFill s _ => times (volume ty.defaultShape) .defaultConstruct ++ times (volume ty.defaultShape) .destroy ++
      times (volume s) .copyConstruct
  | .newFillAlloc s _ _ => times (volume ty.defaultShape) .defaultConstruct ++
      times (volume ty.defaultShape) .destroy ++ times (volume s) .copyConstruct
  | .newCopy y => of y fun o => times (owned o) .copyConstruct
  | .newCopyAlloc y _ => of y fun o => times (volume ty.defaultShape) .defaultConstruct ++
      times (volume ty.defaultShape) .destroy ++ times (owned o) .copyConstruct
  | .newMove y => of y fun o => if TakesNew ty o then [] else times (owned o) .moveConstruct
  | .newMoveAlloc y al => of y fun o => if SameAlloc o al then [] else times (owned o) .moveConstruct
  | .delete x => of x fun a => times (owned a) .destroy
  | .copyAssign x y => of x fun a => of y fun o =>
      if x = y then [] else times (owned a) .destroy ++ times (owned o) .copyConstruct
  | .moveAssign x y => of x fun a => of y fun o =>
      if x = y ∨ TakesAssign ty a o then [] else times (owned a) .destroy ++ times (owned o) .moveConstruct
  | .assignCopy x y => of x fun a => of y fun o =>
      if x = y then [] else times (owned a) .destroy ++ times (owned o) .copyConstruct
  | .assignMove x y => of x fun a => of y fun o =>
      if x = y then [] else times (owned a) .destroy ++ times (owned o) .moveConstruct
  | .assignFill x s _ => of x fun a => times (owned a) .destroy ++ times (volume s) .copyConstruct
  | .clear x => of x fun a => times (owned a) .destroy ++ times (volume ty.defaultShape) .defaultConstruct
  | .reshape x s => of x fun a =>
      if a.shape = s.resolve then []
      else times (volume s) .defaultConstruct ++ times (common s a.shape) .moveAssign ++ times (owned a) .destroy ++
        if ty.propagateMove = true ∨ a.alloc.allocated = false ∧ a.alloc.arena = ty.defaultAlloc ∧
            ¬ (0 < s.resolve.flatExtent ∧ s.resolve.flatExtent ≤ ty.inlineSize) then []
        else times (volume s) .moveConstruct ++ times (volume s) .destroy
  | .swap x y => of x fun a => of y fun o =>
      if ty.propagateSwap = true ∨ ty.propagateMove = true ∨ OnHeap ty a ∧ OnHeap ty o then []
      else if OnHeap ty o then
        times (owned a) .moveConstruct ++ times (owned a) .destroy ++ times (owned o) .moveConstruct ++
          times (owned o) .destroy
      else if OnHeap ty a ∧ o.alloc.allocated = false then
        times (owned o) .moveConstruct ++ times (owned o) .destroy ++ times (owned a) .moveConstruct ++
          times (owned a) .destroy
      else if x = y ∨ a.alloc.allocated = false ∧ o.alloc.allocated = false ∧ a.alloc.arena = o.alloc.arena then
        times (owned o) .moveConstruct ++ times (owned o) .destroy ++ times (owned o) .moveConstruct ++
          times (owned o) .destroy
      else
        times (owned o) .moveConstruct ++ times (owned o) .destroy ++ times (owned a) .moveConstruct ++
          times (owned a) .destroy ++ times (owned o) .moveConstruct ++ times (owned o) .destroy
  | .write _ _ _ => [.copyAssign]
  | .makeCopy _ s _ => times (volume s) .defaultConstruct ++ times (volume s) .copyAssign
  | .makeCopyRef _ _ _ s _ => times (volume s) .defaultConstruct ++ times (volume s) .copyAssign
  | .makeMove _ s _ => times (volume s) .defaultConstruct ++ times (volume s) .moveAssign
  | .makeMoveRef _ _ _ s _ => times (volume s) .defaultConstruct ++ times (volume s) .moveAssign
  | .makeMoveRvalue y s al => of y fun o =>
      if o.shape = s ∧ SameAlloc o al then times (owned o) .copyConstruct
      else times (volume s) .defaultConstruct ++ times (volume s) .moveAssign
  | .copyRef _ _ _ _ dst _ => times (volume dst) .copyAssign
  | .moveRef _ _ _ _ dst _ => times (volume dst) .moveAssign
  | .forEach _ s _ _ => times (volume s) .copyAssign
  | .transform _ s _ _ => times (volume s) .moveAssign
where
  /-- Something about object `x`. -/
  of (x : Nat) (f : Arr → List Call) : List Call :=
    match w.vars x with
    | none => []
    | some a => f a

/-- Calls that begin the life of an element. -/
def Call.begins : Call → Bool
  | .defaultConstruct => true
  | .copyConstruct => true
  | .moveConstruct => true
  | _ => false

/-- The number of elements in memory of all arrays. -/
def allOwned (w : World V) : Nat :=
  ((List.range w.nextVar).map fun x => match w.vars x with
    | none => 0
    | some a => owned a).sum

end Nda
