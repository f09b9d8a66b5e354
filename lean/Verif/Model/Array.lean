import Verif.Model.Static
import Verif.Model.Algorithms
/-
Model of the container `array` (array.h:2233-2732): allocation, element lifetimes, copies, moves,
`clear`, `reshape`, `swap`.

Memory is a heap of separate allocations ("blocks").  Every element of a block records how many
constructor calls have not yet been matched by a destructor call, and its value.  A pointer is null
or a block together with an element offset; an offset outside of the block is an error only when it
is dereferenced.  Two pointers into different blocks never compare equal.

Array objects are variables of the heap, named by numbers, so that the two parameters of a member
function can be the same object.

The arrays of one program have one element type, one shape type with run-time mins, extents and strides
(or with static ones under which the conversions of `Verif.Model.Static` are the identity) and one
allocator type.  An allocator object is the number of the arena it allocates from; two allocators
compare equal if they share the arena.  `auto_allocator` (array.h:3110-3179), the allocator of small arrays,
has in addition a buffer of its own.  Exceptions are the subject of `Verif.Model.ArrayThrow`.
-/
namespace Nda

/-- A null pointer, or a block and an offset in elements. -/
abbrev Ptr := Option (Nat × Int)

/-- Ways to go wrong. -/
inductive Fault where
  /-- an element outside of a block, or of a released block, is accessed -/
  | outOfBounds
  /-- an element that is not alive is read, assigned or destroyed -/
  | dead
  /-- `deallocate` with a pointer, size or allocator other than those of the allocation -/
  | badDealloc
  /-- a block is released while elements are alive -/
  | leak
  /-- an assertion of the library fails -/
  | assertion
  /-- arithmetic on or access through a null pointer -/
  | null
  /-- an object that does not exist is used -/
  | noObject
  /-- a loop does not end -/
  | noEnd
deriving DecidableEq, Repr

/-- Properties of the types of a program: the nested types and functions of
`std::allocator_traits<Alloc>`, `Alloc()`, `Shape()`, `T()`, what is left in a moved-from `T`, and what
is found in uninitialised memory.  `inlineSize` is the parameter `N` of `auto_allocator` and 0 for other
allocators.  `debug` says whether assertions are compiled in. -/
structure Types (V : Type) where
  debug : Bool
  inlineSize : Nat := 0
  propagateCopy : Bool
  propagateMove : Bool
  propagateSwap : Bool
  selectOnCopy : Nat → Nat
  defaultAlloc : Nat
  defaultShape : Shape
  defaultValue : V
  moved : V → V
  junk : V

/-- Where an allocation is from: an arena, or the buffer of an allocator. -/
inductive Source where
  | arena (k : Nat)
  | inline (self : Nat)
deriving DecidableEq, Repr, Inhabited

/-- array.h:3116-3118: an allocator object: the arena of the (base) allocator, the address of the object,
which is that of its buffer, and whether the buffer is in use.  The last two are of no importance for
allocators other than `auto_allocator`. -/
structure Allocator where
  arena : Nat
  self : Nat
  allocated : Bool
deriving DecidableEq, Repr, Inhabited

/-- array.h:3166-3173 `operator==`. -/
def Allocator.eq (a b : Allocator) : Bool :=
  if a.allocated || b.allocated then a.self == b.self else a.arena == b.arena

/-- array.h:3149-3156 `allocate`. -/
def Allocator.allocate (N : Nat) (a : Allocator) (n : Nat) : Source × Allocator :=
  if !a.allocated && decide (n ≤ N) then (.inline a.self, { a with allocated := true })
  else (.arena a.arena, a)

/-- An allocation: where it is from, its number of elements, and for each element the number of
pending destructor calls and the value. -/
structure Block (V : Type) where
  source : Source
  size : Nat
  live : Int → Nat
  val : Int → V

/-- array.h:2275-2279: the members of `array`. -/
structure Arr where
  alloc : Allocator
  buffer : Ptr
  bufferSize : Nat
  base : Ptr
  shape : Shape
deriving DecidableEq, Repr, Inhabited

/-- The member functions of the element type: the constructors without arguments, from an lvalue and from an
rvalue, the assignment operators from an lvalue and from an rvalue, and the destructor. -/
inductive Call where
  | defaultConstruct
  | copyConstruct
  | moveConstruct
  | copyAssign
  | moveAssign
  | destroy
deriving DecidableEq, Repr

/-- The state of a program.  `calls` are the calls of element constructors, assignments and destructors
so far. -/
structure World (V : Type) where
  heap : Nat → Option (Block V)
  nextBlock : Nat
  vars : Nat → Option Arr
  nextVar : Nat
  calls : List Call

/-- The state before anything has happened. -/
def World.start {V : Type} : World V := ⟨fun _ => none, 0, fun _ => none, 0, []⟩



/-- Going wrong unless `b`. -/
def check {V : Type} (f : Fault) (b : Bool) (w : World V) : Except Fault (World V) :=
  if b then .ok w else .error f

/-- `assert(b)`. -/
def assert {V : Type} (ty : Types V) (b : Bool) (w : World V) : Except Fault (World V) :=
  check .assertion (!ty.debug || b) w

section
variable {V : Type}

def World.setBlock (w : World V) (b : Nat) (x : Option (Block V)) : World V :=
  { w with heap := fun c => if c = b then x else w.heap c }

def World.setVar (w : World V) (x : Nat) (a : Option Arr) : World V :=
  { w with vars := fun y => if y = x then a else w.vars y }

/-- Access to a member of an object. -/
def World.get (w : World V) (x : Nat) : Except Fault Arr :=
  match w.vars x with
  | some a => .ok a
  | none => .error .noObject

/-- A new object. -/
def World.push (w : World V) (a : Arr) : World V :=
  { w.setVar w.nextVar (some a) with nextVar := w.nextVar + 1 }

/-! ### Elements and allocations -/

/-- The block of an element access. -/
def World.block (w : World V) (b : Nat) (o : Int) : Except Fault (Block V) :=
  match w.heap b with
  | none => .error .outOfBounds
  | some blk => if 0 ≤ o ∧ o < blk.size then .ok blk else .error .outOfBounds

/-- Reading an element. -/
def readAt (w : World V) (b : Nat) (o : Int) : Except Fault V := do
  let blk ← w.block b o
  if blk.live o = 0 then .error .dead else .ok (blk.val o)

/-- `alloc_traits::construct(alloc_, &x)`, `construct(alloc_, &x, v)` or `construct(alloc_, &x, std::move(v))`;
the constructor `k` gives the element the value `v`. -/
def constructAt (k : Call) (b : Nat) (o : Int) (v : V) (w : World V) : Except Fault (World V) := do
  let blk ← w.block b o
  .ok { w.setBlock b (some { blk with
    live := fun p => if p = o then blk.live o + 1 else blk.live p
    val := fun p => if p = o then v else blk.val p }) with calls := w.calls ++ [k] }

/-- `alloc_traits::destroy(alloc_, &x)`. -/
def destroyAt (b : Nat) (o : Int) (w : World V) : Except Fault (World V) := do
  let blk ← w.block b o
  if blk.live o = 0 then .error .dead else
    .ok { w.setBlock b (some { blk with
      live := fun p => if p = o then blk.live o - 1 else blk.live p }) with calls := w.calls ++ [.destroy] }

/-- Assigning a value to an element, which must be alive, with the operator `k`. -/
def assignAt (k : Call) (b : Nat) (o : Int) (v : V) (w : World V) : Except Fault (World V) := do
  let blk ← w.block b o
  if blk.live o = 0 then .error .dead else
    .ok { w.setBlock b (some { blk with
      val := fun p => if p = o then v else blk.val p }) with calls := w.calls ++ [k] }

/-- What is left in a moved-from element. -/
def movedFromAt (ty : Types V) (b : Nat) (o : Int) (w : World V) : Except Fault (World V) := do
  let blk ← w.block b o
  .ok (w.setBlock b (some { blk with
    val := fun p => if p = o then ty.moved (blk.val o) else blk.val p }))

/-- array.h:2305-2306: `construct(alloc_, &dst, src)`. -/
def copyConstructAt (bs bd : Nat) (p : Int × Int) (w : World V) : Except Fault (World V) := do
  let v ← readAt w bs p.1
  constructAt .copyConstruct bd p.2 v w

/-- array.h:2311-2314: `construct(alloc_, &dst, std::move(src))`. -/
def moveConstructAt (ty : Types V) (bs bd : Nat) (p : Int × Int) (w : World V) : Except Fault (World V) := do
  let v ← readAt w bs p.1
  let w ← movedFromAt ty bs p.1 w
  constructAt .moveConstruct bd p.2 v w

/-- array.h:1416-1419 `internal::move_assign`. -/
def moveAssignAt (ty : Types V) (bs bd : Nat) (p : Int × Int) (w : World V) : Except Fault (World V) := do
  let v ← readAt w bs p.1
  let w ← movedFromAt ty bs p.1 w
  assignAt .moveAssign bd p.2 v w

/-- array.h:1421-1424 `internal::copy_assign`. -/
def copyAssignAt (bs bd : Nat) (p : Int × Int) (w : World V) : Except Fault (World V) := do
  let v ← readAt w bs p.1
  assignAt .copyAssign bd p.2 v w

/-- Giving a block back, which must have no live elements. -/
def World.free (w : World V) (b : Nat) (blk : Block V) : Except Fault (World V) :=
  if (List.range blk.size).all fun k : Nat => blk.live k == 0 then .ok (w.setBlock b none)
  else .error .leak

/-- `alloc_traits::deallocate(alloc_, p, n)`, array.h:3157-3164 for `auto_allocator`; the result is the state
and the allocator. -/
def release (ty : Types V) (al : Allocator) (p : Ptr) (n : Nat) (w : World V) :
    Except Fault (World V × Allocator) :=
  match p with
  | none => .error .badDealloc
  | some (b, o) =>
    match w.heap b with
    | none => .error .badDealloc
    | some blk =>
      if o = 0 ∧ blk.source = .inline al.self then do
        let w ← assert ty al.allocated w
        let w ← w.free b blk
        .ok (w, { al with allocated := false })
      else if o ≠ 0 ∨ blk.size ≠ n ∨ blk.source ≠ .arena al.arena then .error .badDealloc
      else do
        let w ← w.free b blk
        .ok (w, al)

/-! ### Private members of `array` -/

/-- array.h:2282-2291 `allocate`. -/
def allocate (ty : Types V) (this : Nat) (w : World V) : Except Fault (World V) := do
  let a ← w.get this
  let w ← assert ty (a.buffer.isNone) w
  let shape := a.shape.resolve
  let n := shape.flatExtent
  if n > 0 then
    let (source, alloc) := a.alloc.allocate ty.inlineSize n
    let w' : World V := { w.setBlock w.nextBlock (some ⟨source, n, fun _ => 0, fun _ => ty.junk⟩) with
      nextBlock := w.nextBlock + 1 }
    .ok (w'.setVar this (some { a with
      alloc := alloc, shape := shape, bufferSize := n, buffer := some (w.nextBlock, 0),
      base := some (w.nextBlock, 0 - shape.flatMin) }))
  else
    let w ← check .null (shape.flatMin == 0) w
    .ok (w.setVar this (some { a with shape := shape, base := none }))

/-- array.h:2294-2301, 2574-2579 `construct()` (with `v = T()` and the constructor without arguments as `k`)
and `construct(init)` (with the copy constructor). -/
def construct (ty : Types V) (this : Nat) (k : Call) (v : V) (w : World V) : Except Fault (World V) := do
  let a ← w.get this
  let w ← assert ty (a.base.isSome || a.shape.empty) w
  match a.base with
  | none => assert ty ((optimizeShape a.shape).forEachValueInOrderAssert none) w
  | some (b, o) => (a.shape.forEachValue (some o)).foldlM (fun w p => constructAt k b p v w) w

/-- array.h:1914-1924 `copy_shape_traits::for_each_value` with a function acting on the heap. -/
def forEachPair (ty : Types V) (src : Shape) (srcBase : Ptr) (dst : Shape) (dstBase : Ptr)
    (f : Nat → Nat → Int × Int → World V → Except Fault (World V)) (w : World V) : Except Fault (World V) :=
  match srcBase, dstBase with
  | some (bs, os), some (bd, od) =>
    (copyForEachValue src (some os) dst (some od)).foldlM (fun w p => f bs bd p w) w
  | _, _ => assert ty (optimizeCopyShapes src dst).2.empty w

/-- array.h:2302-2307 `copy_construct`. -/
def copyConstruct (ty : Types V) (this other : Nat) (w : World V) : Except Fault (World V) := do
  let a ← w.get this
  let o ← w.get other
  let w ← assert ty ((a.base.isSome || a.shape.empty) && decide (a.shape = o.shape)) w
  forEachPair ty o.shape o.base a.shape a.base copyConstructAt w

/-- array.h:2308-2315 `move_construct`. -/
def moveConstruct (ty : Types V) (this other : Nat) (w : World V) : Except Fault (World V) := do
  let a ← w.get this
  let o ← w.get other
  let w ← assert ty ((a.base.isSome || a.shape.empty) && decide (a.shape = o.shape)) w
  forEachPair ty o.shape o.base a.shape a.base (moveConstructAt ty) w

/-- array.h:2318-2321 `destroy`. -/
def destroy (ty : Types V) (this : Nat) (w : World V) : Except Fault (World V) := do
  let a ← w.get this
  let w ← assert ty (a.base.isSome || a.shape.empty) w
  match a.base with
  | none => assert ty ((optimizeShape a.shape).forEachValueInOrderAssert none) w
  | some (b, o) => (a.shape.forEachValue (some o)).foldlM (fun w p => destroyAt b p w) w

/-- array.h:2323-2331 `deallocate`. -/
def deallocate (ty : Types V) (this : Nat) (w : World V) : Except Fault (World V) := do
  let a ← w.get this
  if a.base.isSome then
    let w ← destroy ty this w
    let (w, alloc) ← release ty a.alloc a.buffer a.bufferSize w
    .ok (w.setVar this (some { a with
      alloc := alloc, base := none, shape := ty.defaultShape, buffer := none }))
  else .ok w

/-- array.h:2342-2348 `swap_except_allocator`. -/
def swapExceptAllocator (this other : Nat) (w : World V) : Except Fault (World V) := do
  let a ← w.get this
  let o ← w.get other
  let w := w.setVar this (some { o with alloc := a.alloc })
  .ok (w.setVar other (some { a with alloc := o.alloc }))

/-- `swap(alloc_, other.alloc_)`, array.h:2473, 2695; the buffers of `auto_allocator` stay where they are
(array.h:3137-3147). -/
def swapAllocator (this other : Nat) (w : World V) : Except Fault (World V) := do
  let a ← w.get this
  let o ← w.get other
  let w := w.setVar this (some { a with alloc := { a.alloc with arena := o.alloc.arena } })
  .ok (w.setVar other (some { o with alloc := { o.alloc with arena := a.alloc.arena } }))

/-- `shape_ = s`. -/
def setShapeMember (this : Nat) (s : Shape) (w : World V) : Except Fault (World V) := do
  let a ← w.get this
  .ok (w.setVar this (some { a with shape := s }))

/-! ### `assign` -/

/-- array.h:2486-2504 `assign(const array&)`. -/
def assignCopy (ty : Types V) (this other : Nat) (w : World V) : Except Fault (World V) := do
  let a ← w.get this
  let o ← w.get other
  if a.base = o.base then
    if a.base.isSome then assert ty (decide (a.shape = o.shape)) w
    else
      let w ← setShapeMember this o.shape w
      assert ty o.shape.empty w
  else
    let w ← if a.base.isSome && decide (a.shape = o.shape) then destroy ty this w
      else do
        let w ← deallocate ty this w
        let w ← setShapeMember this o.shape w
        allocate ty this w
    copyConstruct ty this other w

/-- array.h:2505-2523 `assign(array&&)`. -/
def assignMove (ty : Types V) (this other : Nat) (w : World V) : Except Fault (World V) := do
  let a ← w.get this
  let o ← w.get other
  if a.base = o.base then
    if a.base.isSome then assert ty (decide (a.shape = o.shape)) w
    else
      let w ← setShapeMember this o.shape w
      assert ty o.shape.empty w
  else
    let w ← if a.base.isSome && decide (a.shape = o.shape) then destroy ty this w
      else do
        let w ← deallocate ty this w
        let w ← setShapeMember this o.shape w
        allocate ty this w
    moveConstruct ty this other w

/-- array.h:2527-2537 `assign(shape, value)`. -/
def assignFill (ty : Types V) (this : Nat) (shape : Shape) (v : V) (w : World V) : Except Fault (World V) := do
  let a ← w.get this
  let shape := shape.resolve
  let w ← if a.shape = shape then destroy ty this w
    else do
      let w ← deallocate ty this w
      let w ← setShapeMember this shape w
      allocate ty this w
  construct ty this .copyConstruct v w

/-! ### Constructors and destructor; the new object is number `w.nextVar` -/

/-- array.h:2366-2370 `array(shape, alloc)`. -/
def newShapeAlloc (ty : Types V) (shape : Shape) (alloc : Nat) (w : World V) : Except Fault (World V) := do
  let n := w.nextVar
  let w := w.push ⟨⟨alloc, n, false⟩, none, 0, none, shape⟩
  let w ← allocate ty n w
  construct ty n .defaultConstruct ty.defaultValue w

/-- array.h:2371-2375 `array(shape)`. -/
def newShape (ty : Types V) (shape : Shape) (w : World V) : Except Fault (World V) :=
  newShapeAlloc ty shape ty.defaultAlloc w

/-- array.h:2354 `array()`. -/
def newDefault (ty : Types V) (w : World V) : Except Fault (World V) := newShape ty ty.defaultShape w

/-- array.h:2355 `array(alloc)`. -/
def newAlloc (ty : Types V) (alloc : Nat) (w : World V) : Except Fault (World V) :=
  newShapeAlloc ty ty.defaultShape alloc w

/-- array.h:2359-2361 `array(shape, value, alloc)`. -/
def newFillAlloc (ty : Types V) (shape : Shape) (v : V) (alloc : Nat) (w : World V) : Except Fault (World V) := do
  let n := w.nextVar
  let w ← newAlloc ty alloc w
  assignFill ty n shape v w

/-- array.h:2362 `array(shape, value)`. -/
def newFill (ty : Types V) (shape : Shape) (v : V) (w : World V) : Except Fault (World V) := do
  let n := w.nextVar
  let w ← newDefault ty w
  assignFill ty n shape v w

/-- array.h:2379-2383 `array(const array&)`; `shape_` is default constructed. -/
def newCopy (ty : Types V) (other : Nat) (w : World V) : Except Fault (World V) := do
  let n := w.nextVar
  let o ← w.get other
  let w := w.push ⟨⟨ty.selectOnCopy o.alloc.arena, n, false⟩, none, 0, none, ty.defaultShape⟩
  assignCopy ty n other w

/-- array.h:2387 `array(const array&, alloc)`. -/
def newCopyAlloc (ty : Types V) (other alloc : Nat) (w : World V) : Except Fault (World V) := do
  let n := w.nextVar
  let w ← newAlloc ty alloc w
  assignCopy ty n other w

/-- array.h:2333-2340 `get_allocator_for_move`; moving from an allocator does not change it. -/
def allocatorForMove (ty : Types V) (o : Arr) : Nat :=
  if ty.propagateMove then o.alloc.arena else ty.defaultAlloc

/-- array.h:2394-2407 `array(array&&)`. -/
def newMove (ty : Types V) (other : Nat) (w : World V) : Except Fault (World V) := do
  let n := w.nextVar
  let o ← w.get other
  let alloc : Allocator := ⟨allocatorForMove ty o, n, false⟩
  let w := w.push ⟨alloc, none, 0, none, ty.defaultShape⟩
  if ty.propagateMove || alloc.eq o.alloc then swapExceptAllocator n other w
  else
    let w ← setShapeMember n o.shape w
    let w ← allocate ty n w
    moveConstruct ty n other w

/-- array.h:2414-2424 `array(array&&, alloc)`. -/
def newMoveAlloc (ty : Types V) (other alloc : Nat) (w : World V) : Except Fault (World V) := do
  let n := w.nextVar
  let o ← w.get other
  let alloc : Allocator := ⟨alloc, n, false⟩
  let w := w.push ⟨alloc, none, 0, none, ty.defaultShape⟩
  if alloc.eq o.alloc then swapExceptAllocator n other w
  else
    let w ← setShapeMember n o.shape w
    let w ← allocate ty n w
    moveConstruct ty n other w

/-- array.h:2426 `~array()`. -/
def delete (ty : Types V) (this : Nat) (w : World V) : Except Fault (World V) := do
  let w ← deallocate ty this w
  .ok (w.setVar this none)

/-! ### Assignment operators, `clear`, `reshape`, `swap` -/

/-- array.h:2436-2454 `operator=(const array&)`. -/
def copyAssignOp (ty : Types V) (this other : Nat) (w : World V) : Except Fault (World V) := do
  let a ← w.get this
  let o ← w.get other
  if a.base = o.base then
    if a.base.isSome then assert ty (decide (a.shape = o.shape)) w
    else
      let w ← setShapeMember this o.shape w
      assert ty o.shape.empty w
  else
    let w ← if ty.propagateCopy then do
        let w ← if !a.alloc.eq o.alloc then deallocate ty this w else .ok w
        let a ← w.get this
        .ok (w.setVar this (some { a with alloc := { a.alloc with arena := o.alloc.arena } }))
      else .ok w
    assignCopy ty this other w

/-- array.h:2460-2481 `operator=(array&&)`. -/
def moveAssignOp (ty : Types V) (this other : Nat) (w : World V) : Except Fault (World V) := do
  let a ← w.get this
  let o ← w.get other
  if a.base = o.base then
    if a.base.isSome then assert ty (decide (a.shape = o.shape)) w
    else
      let w := w.setVar this (some { a with shape := o.shape })
      let w := w.setVar other (some { o with shape := a.shape })
      let a ← w.get this
      assert ty a.shape.empty w
  else if ty.propagateMove then
    let w ← swapAllocator this other w
    swapExceptAllocator this other w
  else if a.alloc.eq o.alloc then swapExceptAllocator this other w
  else assignMove ty this other w

/-- array.h:2619-2624 `clear`. -/
def clear (ty : Types V) (this : Nat) (w : World V) : Except Fault (World V) := do
  let w ← deallocate ty this w
  let w ← setShapeMember this ty.defaultShape w
  let w ← allocate ty this w
  construct ty this .defaultConstruct ty.defaultValue w

/-- array.h:2628-2644 `reshape`; the local variable `new_array` is destroyed at the end. -/
def reshape (ty : Types V) (this : Nat) (shape : Shape) (w : World V) : Except Fault (World V) := do
  let a ← w.get this
  let shape := shape.resolve
  if a.shape = shape then .ok w else
    let n := w.nextVar
    let w ← newShape ty shape w
    let new ← w.get n
    let a ← w.get this
    let intersection := Shape.clamp shape a.shape
    let ibase := new.base.map fun p => (p.1, p.2 + shape.flatOffset intersection.mins)
    let w ← forEachPair ty a.shape a.base intersection ibase (moveAssignAt ty) w
    let w ← moveAssignOp ty this n w
    delete ty n w

/-- array.h:2691-2704 `swap`, 2755-2758; the local variable `temp` is destroyed at the end. -/
def swap (ty : Types V) (this other : Nat) (w : World V) : Except Fault (World V) :=
  if ty.propagateSwap then do
    let w ← swapAllocator this other w
    swapExceptAllocator this other w
  else do
    let n := w.nextVar
    let w ← newMove ty other w
    let w ← moveAssignOp ty other this w
    let w ← moveAssignOp ty this n w
    delete ty n w

/-! ### Functions returning a new array

The source is an `array_ref` to memory of the array `y`: its shape is `src`, and `off` is the difference of
its base pointer and the one of `y`.  The local variable `dst` is the returned object ("named return value
optimisation"); it is number `w.nextVar`. -/

/-- array.h:2763-2772 `copy(array_ref, array_ref)` (`keep`), 2834-2843 `move(array_ref, array_ref)`. -/
def assignElements (keep : Bool) (ty : Types V) (src : Shape) (srcBase : Ptr) (dst : Shape) (dstBase : Ptr)
    (w : World V) : Except Fault (World V) :=
  if dst.empty then .ok w
  else do
    let w ← assert ty (copyAssert src dst) w
    forEachPair ty src srcBase dst dstBase (if keep then copyAssignAt else moveAssignAt ty) w

/-- array.h:2804-2812 `make_copy(array_ref, shape, alloc)` (`keep`), 2866-2873
`make_move(array_ref, shape, alloc)`. -/
def makeFrom (keep : Bool) (ty : Types V) (y : Nat) (src : Shape) (off : Int) (shape : Shape) (alloc : Nat)
    (w : World V) : Except Fault (World V) := do
  let n := w.nextVar
  let o ← w.get y
  let w ← newShapeAlloc ty shape alloc w
  let d ← w.get n
  assignElements keep ty src (o.base.map fun p => (p.1, p.2 + off)) d.shape d.base w

/-- array.h:2813-2818 `make_copy(array, shape, alloc)` and 2874-2879 `make_move(array&, shape, alloc)`: the
source is `src.cref()` or `src.ref()`. -/
def makeFromArray (keep : Bool) (ty : Types V) (y : Nat) (shape : Shape) (alloc : Nat) (w : World V) :
    Except Fault (World V) := do
  let o ← w.get y
  makeFrom keep ty y o.shape 0 shape alloc w

/-- array.h:2790-2801 `make_copy(src, alloc)`. -/
def makeCopySame (ty : Types V) (y : Nat) (alloc : Nat) (w : World V) : Except Fault (World V) := do
  let o ← w.get y
  makeFrom true ty y o.shape 0 o.shape alloc w

/-- array.h:2880-2887 `make_move(array&&, shape, alloc)`.  In C++14, the language of the Makefile, and in
C++17 `return src` copies, because `src` is a reference.  The argument `alloc` is not the allocator of an
array. -/
def makeMoveRvalue (ty : Types V) (y : Nat) (shape : Shape) (alloc : Nat) (w : World V) :
    Except Fault (World V) := do
  let o ← w.get y
  if o.shape = shape ∧ Allocator.eq ⟨alloc, w.nextVar, false⟩ o.alloc then newCopy ty y w
  else makeFromArray false ty y shape alloc w

/-- array.h:1633-1639 `make_compact` for shapes with run-time parameters (see `makeCompact` in
`Verif.Model.Static` for the general case). -/
def makeCompactDynamic (s : Shape) : Shape :=
  values (makeCompact (s.map fun d => ⟨⟨dynamic, dynamic, dynamic⟩, d⟩))

/-- array.h:2820-2829 `make_compact_copy` (`keep`), 2889-2902 `make_compact_move`; the overload for an
rvalue also calls `make_move(array&, …)`, because `src` is an lvalue. -/
def makeCompactFrom (keep : Bool) (ty : Types V) (y : Nat) (alloc : Nat) (w : World V) :
    Except Fault (World V) := do
  let o ← w.get y
  makeFrom keep ty y o.shape 0 (makeCompactDynamic o.shape) alloc w

/-! ### Element access -/

/-- array.h:2543-2552 `operator[]`, `operator()`: reading an element. -/
def elem (w : World V) (x : Nat) (i : Index) : Except Fault V := do
  let a ← w.get x
  match a.base with
  | none => .error .null
  | some (b, o) => readAt w b (o + a.shape.flatOffset i)

/-- `a(i...) = v`. -/
def write (x : Nat) (i : Index) (v : V) (w : World V) : Except Fault (World V) := do
  let a ← w.get x
  match a.base with
  | none => .error .null
  | some (b, o) => assignAt .copyAssign b (o + a.shape.flatOffset i) v w

/-! ### Algorithms on parts of arrays

A view of array `x` is an `array_ref` with shape `s` whose base pointer is `off` elements after the one of
`x`; with the shape of `x` and `off = 0` it is `x.ref()`. -/

/-- array.h:2763-2788 `copy` (`keep`) and 2834-2859 `move` from a view of `y` to a view of `x`. -/
def assignRef (keep : Bool) (ty : Types V) (y : Nat) (src : Shape) (soff : Int) (x : Nat) (dst : Shape) (doff : Int)
    (w : World V) : Except Fault (World V) := do
  let o ← w.get y
  let a ← w.get x
  assignElements keep ty src (o.base.map fun p => (p.1, p.2 + soff)) dst (a.base.map fun p => (p.1, p.2 + doff)) w

/-- Assigning `f v` to an element with value `v`; the operator is the one of `fill`, where `f v` is an lvalue. -/
def replaceAt (b : Nat) (f : V → V) (o : Int) (w : World V) : Except Fault (World V) := do
  let v ← readAt w b o
  assignAt .copyAssign b o (f v) w

/-- array.h:2104-2107 `array_ref::for_each_value` with a function that, when it is called for the `k`-th time,
replaces `v` by `f k v`.  With `f k v = g k` it is `generate` (array.h:2917-2926), and with `f k v = u` it is
`fill` (array.h:2905-2912). -/
def forEachRef (ty : Types V) (x : Nat) (s : Shape) (off : Int) (f : Nat → V → V) (w : World V) :
    Except Fault (World V) := do
  let a ← w.get x
  match a.base with
  | none => assert ty ((optimizeShape s).forEachValueInOrderAssert none) w
  | some (b, o) => (s.forEachValue (some (o + off))).zipIdx.foldlM (fun w p => replaceAt b (f p.2) p.1 w) w

/-- array.h:2931-2940 `transform_index`; `transform_indices` (2946-2954) passes the same index as arguments. -/
def transformRef (x : Nat) (s : Shape) (off : Int) (f : Index → V) (w : World V) : Except Fault (World V) := do
  let a ← w.get x
  match s.forEachIndex with
  | none => .error .noEnd
  | some tr => tr.foldlM (fun w i =>
    match a.base with
    | none => .error .null
    | some (b, o) => assignAt .moveAssign b (o + off + s.flatOffset i) (f i) w) w

/-! ### Programs -/

/-- One statement of a program. -/
inductive Cmd (V : Type) where
  | new
  | newAlloc (alloc : Nat)
  | newShape (s : Shape)
  | newShapeAlloc (s : Shape) (alloc : Nat)
  | newFill (s : Shape) (v : V)
  | newFillAlloc (s : Shape) (v : V) (alloc : Nat)
  | newCopy (y : Nat)
  | newCopyAlloc (y : Nat) (alloc : Nat)
  | newMove (y : Nat)
  | newMoveAlloc (y : Nat) (alloc : Nat)
  | delete (x : Nat)
  | copyAssign (x y : Nat)
  | moveAssign (x y : Nat)
  | assignCopy (x y : Nat)
  | assignMove (x y : Nat)
  | assignFill (x : Nat) (s : Shape) (v : V)
  | clear (x : Nat)
  | reshape (x : Nat) (s : Shape)
  | swap (x y : Nat)
  | write (x : Nat) (i : Index) (v : V)
  | makeCopy (y : Nat) (s : Shape) (alloc : Nat)
  | makeCopyRef (y : Nat) (src : Shape) (off : Int) (s : Shape) (alloc : Nat)
  | makeMove (y : Nat) (s : Shape) (alloc : Nat)
  | makeMoveRef (y : Nat) (src : Shape) (off : Int) (s : Shape) (alloc : Nat)
  | makeMoveRvalue (y : Nat) (s : Shape) (alloc : Nat)
  | copyRef (y : Nat) (src : Shape) (soff : Int) (x : Nat) (dst : Shape) (doff : Int)
  | moveRef (y : Nat) (src : Shape) (soff : Int) (x : Nat) (dst : Shape) (doff : Int)
  | forEach (x : Nat) (s : Shape) (off : Int) (f : Nat → V → V)
  | transform (x : Nat) (s : Shape) (off : Int) (f : Index → V)

/-- Executing one statement. -/
def exec (ty : Types V) : Cmd V → World V → Except Fault (World V)
  | .new => newDefault ty
  | .newAlloc al => newAlloc ty al
  | .newShape s => newShape ty s
  | .newShapeAlloc s al => newShapeAlloc ty s al
  | .newFill s v => newFill ty s v
  | .newFillAlloc s v al => newFillAlloc ty s v al
  | .newCopy y => newCopy ty y
  | .newCopyAlloc y al => newCopyAlloc ty y al
  | .newMove y => newMove ty y
  | .newMoveAlloc y al => newMoveAlloc ty y al
  | .delete x => delete ty x
  | .copyAssign x y => copyAssignOp ty x y
  | .moveAssign x y => moveAssignOp ty x y
  | .assignCopy x y => assignCopy ty x y
  | .assignMove x y => assignMove ty x y
  | .assignFill x s v => assignFill ty x s v
  | .clear x => clear ty x
  | .reshape x s => reshape ty x s
  | .swap x y => swap ty x y
  | .write x i v => write x i v
  | .makeCopy y s al => makeFromArray true ty y s al
  | .makeCopyRef y src off s al => makeFrom true ty y src off s al
  | .makeMove y s al => makeFromArray false ty y s al
  | .makeMoveRef y src off s al => makeFrom false ty y src off s al
  | .makeMoveRvalue y s al => makeMoveRvalue ty y s al
  | .copyRef y src soff x dst doff => assignRef true ty y src soff x dst doff
  | .moveRef y src soff x dst doff => assignRef false ty y src soff x dst doff
  | .forEach x s off f => forEachRef ty x s off f
  | .transform x s off f => transformRef x s off f

/-- Executing a program. -/
def execAll (ty : Types V) (p : List (Cmd V)) (w : World V) : Except Fault (World V) :=
  p.foldlM (fun w c => exec ty c w) w

end
end Nda
