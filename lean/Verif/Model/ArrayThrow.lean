import Verif.Model.Array
/-
The operations of `array` (array.h:2267-2537) when an exception leaves them.

An exception is thrown either by the constructor of an element, after `k` elements have been constructed, or
by the allocator.  The functions below give the program state once the exception has left the operation:
there is no `try` in array.h, so whatever follows the throwing call is skipped, and the only code that runs
is the destructor of an array whose delegated-to constructor has finished (C++14 [except.ctor]/2).  They say
nothing about a `k` that is not less than the number of elements.
-/
namespace Nda

section
variable {V : Type}

/-- array.h:2294-2301: the constructor of element number `k` of `construct` throws. -/
def constructThrow (ty : Types V) (this : Nat) (c : Call) (v : V) (k : Nat) (w : World V) : Except Fault (World V) := do
  let a ← w.get this
  let w ← assert ty (a.base.isSome || a.shape.empty) w
  match a.base with
  | none => assert ty ((optimizeShape a.shape).forEachValueInOrderAssert none) w
  | some (b, o) => ((a.shape.forEachValue (some o)).take k).foldlM (fun w p => constructAt c b p v w) w

/-- array.h:2302-2307: the constructor of element number `k` of `copy_construct` throws. -/
def copyConstructThrow (ty : Types V) (this other k : Nat) (w : World V) : Except Fault (World V) := do
  let a ← w.get this
  let o ← w.get other
  let w ← assert ty ((a.base.isSome || a.shape.empty) && decide (a.shape = o.shape)) w
  match o.base, a.base with
  | some (bs, os), some (bd, od) =>
    ((copyForEachValue o.shape (some os) a.shape (some od)).take k).foldlM
      (fun w p => copyConstructAt bs bd p w) w
  | _, _ => assert ty (optimizeCopyShapes o.shape a.shape).2.empty w

/-- array.h:2486-2504: `copy_construct` throws in `assign(const array&)`. -/
def assignCopyThrow (ty : Types V) (this other k : Nat) (w : World V) : Except Fault (World V) := do
  let a ← w.get this
  let o ← w.get other
  if a.base = o.base then
    if a.base.isSome then assert ty (decide (a.shape = o.shape)) w
    else
      let w ← setShapeMember this o.shape w
      assert ty o.shape.empty w
  else
    let w ← if a.base.isSome && decide (a.shape = o.shape) then destroy ty this w
      else do
        let w ← deallocate ty this w
        let w ← setShapeMember this o.shape w
        allocate ty this w
    copyConstructThrow ty this other k w

/-- array.h:2527-2537: `construct` throws in `assign(shape, value)`. -/
def assignFillThrow (ty : Types V) (this : Nat) (shape : Shape) (v : V) (k : Nat) (w : World V) :
    Except Fault (World V) := do
  let a ← w.get this
  let shape := shape.resolve
  let w ← if a.shape = shape then destroy ty this w
    else do
      let w ← deallocate ty this w
      let w ← setShapeMember this shape w
      allocate ty this w
  constructThrow ty this .copyConstruct v k w

/-- array.h:2366-2370: `construct` throws in `array(shape, alloc)`.  There is no object afterwards, and its
destructor does not run. -/
def newShapeAllocThrow (ty : Types V) (shape : Shape) (alloc k : Nat) (w : World V) :
    Except Fault (World V) := do
  let n := w.nextVar
  let w := w.push ⟨⟨alloc, n, false⟩, none, 0, none, shape⟩
  let w ← allocate ty n w
  let w ← constructThrow ty n .defaultConstruct ty.defaultValue k w
  .ok (w.setVar n none)

/-- array.h:2379-2383: `assign` throws in `array(other)`.  There is no object afterwards, and its destructor
does not run. -/
def newCopyThrow (ty : Types V) (other k : Nat) (w : World V) : Except Fault (World V) := do
  let o ← w.get other
  let n := w.nextVar
  let w := w.push ⟨⟨ty.selectOnCopy o.alloc.arena, n, false⟩, none, 0, none, ty.defaultShape⟩
  let w ← assignCopyThrow ty n other k w
  .ok (w.setVar n none)

/-- array.h:2358-2361: `assign` throws in `array(shape, value, alloc)`.  The constructor delegated to has
finished, so the destructor runs. -/
def newFillAllocThrow (ty : Types V) (shape : Shape) (v : V) (alloc k : Nat) (w : World V) :
    Except Fault (World V) := do
  let n := w.nextVar
  let w ← newAlloc ty alloc w
  let w ← assignFillThrow ty n shape v k w
  delete ty n w

/-- array.h:2387: `assign` throws in `array(other, alloc)`.  The constructor delegated to has finished, so
the destructor runs. -/
def newCopyAllocThrow (ty : Types V) (other alloc k : Nat) (w : World V) : Except Fault (World V) := do
  let n := w.nextVar
  let w ← newAlloc ty alloc w
  let w ← assignCopyThrow ty n other k w
  delete ty n w

/-- array.h:2282-2291: `alloc_traits::allocate` throws in `allocate`, if it is called.  (With
`auto_allocator` it only throws if the buffer is too small.) -/
def allocateThrow (ty : Types V) (this : Nat) (w : World V) : Except Fault (World V) := do
  let a ← w.get this
  let w ← assert ty (a.buffer.isNone) w
  let shape := a.shape.resolve
  let n := shape.flatExtent
  if n > 0 then .ok (w.setVar this (some { a with shape := shape, bufferSize := n }))
  else allocate ty this w

/-- array.h:2498-2500: `allocate` throws in `assign(const array&)` (the branch that calls it). -/
def assignCopyNoMem (ty : Types V) (this other : Nat) (w : World V) : Except Fault (World V) := do
  let o ← w.get other
  let w ← deallocate ty this w
  let w ← setShapeMember this o.shape w
  allocateThrow ty this w

/-- array.h:2531-2534: `allocate` throws in `assign(shape, value)` (the branch that calls it). -/
def assignFillNoMem (ty : Types V) (this : Nat) (shape : Shape) (w : World V) : Except Fault (World V) := do
  let w ← deallocate ty this w
  let w ← setShapeMember this shape.resolve w
  allocateThrow ty this w

/-- array.h:2366-2370: `allocate` throws in `array(shape, alloc)`. -/
def newShapeAllocNoMem (ty : Types V) (shape : Shape) (alloc : Nat) (w : World V) :
    Except Fault (World V) := do
  let n := w.nextVar
  let w := w.push ⟨⟨alloc, n, false⟩, none, 0, none, shape⟩
  let w ← allocateThrow ty n w
  .ok (w.setVar n none)

end

end Nda
