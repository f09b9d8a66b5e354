import Verif.Model.Array
/-
Model of `uninitialized_allocator` (array.h:3181-3237), an allocator that skips default construction.

Elements that have not been given a value are indeterminate.  An element of an array with such an allocator is therefore
an `Option`: `none` is an indeterminate value.  Copying or moving an indeterminate value gives an indeterminate value (for
most types the C++ standard leaves undefined what this does; programs that do not do so are not concerned).
-/
namespace Nda

variable {V : Type}

/-- The types of a program with `uninitialized_allocator<Alloc>` instead of `Alloc`, array.h:3190-3199, 3201-3204, 3216-3225:
everything but construction is done by the base allocator.  A default constructed element and uninitialised memory are
indeterminate. -/
def Types.uninitialized (ty : Types V) : Types (Option V) where
  debug := ty.debug
  inlineSize := ty.inlineSize
  propagateCopy := ty.propagateCopy
  propagateMove := ty.propagateMove
  propagateSwap := ty.propagateSwap
  selectOnCopy := ty.selectOnCopy
  defaultAlloc := ty.defaultAlloc
  defaultShape := ty.defaultShape
  defaultValue := none
  moved := Option.map ty.moved
  junk := none

/-- array.h:3208-3214 `construct(ptr)` without further arguments does nothing.  The element, of a trivial type, is alive as
soon as there is memory for it. -/
def skipConstructAt (b : Nat) (o : Int) (w : World (Option V)) : Except Fault (World (Option V)) := do
  let blk ← w.block b o
  .ok (w.setBlock b (some { blk with live := fun p => if p = o then blk.live o + 1 else blk.live p }))

/-- array.h:2294-2301 `construct()` with such an allocator. -/
def skipConstruct (ty : Types V) (this : Nat) (w : World (Option V)) : Except Fault (World (Option V)) := do
  let a ← w.get this
  let w ← assert ty.uninitialized (a.base.isSome || a.shape.empty) w
  match a.base with
  | none => assert ty.uninitialized ((optimizeShape a.shape).forEachValueInOrderAssert none) w
  | some (b, o) => (a.shape.forEachValue (some o)).foldlM (fun w p => skipConstructAt b p w) w

/-- array.h:2366-2370 `array(shape, alloc)` with such an allocator. -/
def newShapeSkip (ty : Types V) (shape : Shape) (alloc : Nat) (w : World (Option V)) : Except Fault (World (Option V)) := do
  let n := w.nextVar
  let w := w.push ⟨⟨alloc, n, false⟩, none, 0, none, shape⟩
  let w ← allocate ty.uninitialized n w
  skipConstruct ty n w

/-- array.h:2619-2624 `clear` with such an allocator. -/
def clearSkip (ty : Types V) (this : Nat) (w : World (Option V)) : Except Fault (World (Option V)) := do
  let w ← deallocate ty.uninitialized this w
  let w ← setShapeMember this ty.defaultShape w
  let w ← allocate ty.uninitialized this w
  skipConstruct ty this w

end Nda
