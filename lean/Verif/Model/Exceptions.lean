import Verif.Model.Array
/-
All statements of `Verif.Model.Array` when a function called by the library throws an exception.

Three kinds of functions can throw: `allocate` of the allocator, the constructors of elements, and the
assignment operators of elements (together with the functions given to `for_each_value`, `generate` and
`transform_index`).  Of one kind, `who`, call number `n` of the statement throws, counting from 0, and no call
of another kind throws.  This covers all ways in which a statement can be left by an exception: there is no
`try` in array.h, and no function that calls one of these is `noexcept` (array.h:3133-3202: `deallocate` and
copying of `auto_allocator` are), so nothing but destructors runs once an exception has been thrown.  Destructors, `deallocate`, and copying, moving, swapping and comparing of
allocators do not throw, as the standard asks of them.

The destructors that run are those of local variables and of objects whose (delegated-to) constructor has
finished (C++14 [except.ctor]).  An object whose constructor is left by an exception is gone without a call of
its destructor.
-/
namespace Nda

/-- The functions that can throw. -/
inductive Thrower where
  | allocator
  | constructor
  | assignment
deriving DecidableEq, Repr

/-- Which functions throw, and what a throwing assignment leaves in the element assigned to and a throwing
move constructor or move assignment in the element moved from. -/
structure Plan (V : Type) where
  who : Thrower
  dst : V → V
  src : V → V

/-- How a function is left: it returns, and call number `n` of those that follow throws, or an exception
leaves it. -/
inductive Left (V : Type) where
  | returned (w : World V) (n : Nat)
  | thrown (w : World V)

/-- Functions that do not throw, and functions that can. -/
abbrev Op (V : Type) := World V → Except Fault (World V)
abbrev OpX (V : Type) := World V → Nat → Except Fault (Left V)

section
variable {V : Type}

/-- A function that does not throw. -/
def lift (f : Op V) : OpX V := fun w n => do
  let w ← f w
  .ok (.returned w n)

/-- One function after the other; the second one is skipped if an exception leaves the first. -/
def andThen (f g : OpX V) : OpX V := fun w n => do
  match ← f w n with
  | .returned w n => g w n
  | .thrown w => .ok (.thrown w)

@[inherit_doc] infixr:60 " ⨟ " => andThen

/-- `cleanup` runs if an exception leaves `f`. -/
def unwinding (f : OpX V) (cleanup : Op V) : OpX V := fun w n => do
  match ← f w n with
  | .returned w n => .ok (.returned w n)
  | .thrown w => do
    let w ← cleanup w
    .ok (.thrown w)

/-- `cleanup`, the destructor of a local variable, runs at the end of the scope `f`, however it is left. -/
def scope (f : OpX V) (cleanup : Op V) : OpX V := unwinding f cleanup ⨟ lift cleanup

/-- A loop. -/
def each {A : Type} : List A → (A → OpX V) → OpX V
  | [], _ => lift .ok
  | a :: as, f => f a ⨟ each as f

/-- Calling `f`, a function of kind `t`; if it throws it leaves the state `fail`. -/
def calling (p : Plan V) (t : Thrower) (fail f : Op V) : OpX V := fun w n =>
  if p.who = t then
    match n with
    | 0 => do
      let w ← fail w
      .ok (.thrown w)
    | n + 1 => lift f w n
  else lift f w n

/-- What is left in an element, which must be alive, by a call that throws. -/
def leaveAt (b : Nat) (o : Int) (f : V → V) : Op V := fun w => do
  let blk ← w.block b o
  if blk.live o = 0 then .error .dead else
    .ok (w.setBlock b (some { blk with val := fun q => if q = o then f (blk.val o) else blk.val q }))

/-! ### Private members of `array` -/

/-- array.h:2282-2291 `allocate`; the buffer of `auto_allocator` (array.h:3149-3156) does not throw.  `shape_` and
`buffer_size_` have been set when the allocator throws. -/
def allocateX (p : Plan V) (ty : Types V) (this : Nat) : OpX V := fun w n => do
  let a ← w.get this
  let w ← assert ty (a.buffer.isNone) w
  let shape := a.shape.resolve
  let m := shape.flatExtent
  if m > 0 ∧ (a.alloc.allocate ty.inlineSize m).1 = .arena a.alloc.arena then
    calling p .allocator (fun w => .ok (w.setVar this (some { a with shape := shape, bufferSize := m })))
      (allocate ty this) w n
  else lift (allocate ty this) w n

/-- array.h:2294-2301 `construct`. -/
def constructX (p : Plan V) (ty : Types V) (this : Nat) (k : Call) (v : V) : OpX V := fun w n => do
  let a ← w.get this
  let w ← assert ty (a.base.isSome || a.shape.empty) w
  match a.base with
  | none => lift (assert ty ((optimizeShape a.shape).forEachValueInOrderAssert none)) w n
  | some (b, o) =>
    each (a.shape.forEachValue (some o)) (fun q => calling p .constructor .ok (constructAt k b q v)) w n

/-- array.h:1914-1924 `copy_shape_traits::for_each_value`. -/
def forEachPairX (ty : Types V) (src : Shape) (srcBase : Ptr) (dst : Shape) (dstBase : Ptr)
    (f : Nat → Nat → Int × Int → OpX V) : OpX V :=
  match srcBase, dstBase with
  | some (bs, os), some (bd, od) => each (copyForEachValue src (some os) dst (some od)) (f bs bd)
  | _, _ => lift (assert ty (optimizeCopyShapes src dst).2.empty)

/-- array.h:2305-2306, 2311-2314: constructing an element from a copy of another one (`keep`) or by moving
it. -/
def constructFromX (keep : Bool) (p : Plan V) (ty : Types V) (bs bd : Nat) (q : Int × Int) : OpX V :=
  if keep then calling p .constructor .ok (copyConstructAt bs bd q)
  else calling p .constructor (leaveAt bs q.1 p.src) (moveConstructAt ty bs bd q)

/-- array.h:2302-2315 `copy_construct` (`keep`) and `move_construct`. -/
def transferX (keep : Bool) (p : Plan V) (ty : Types V) (this other : Nat) : OpX V := fun w n => do
  let a ← w.get this
  let o ← w.get other
  let w ← assert ty ((a.base.isSome || a.shape.empty) && decide (a.shape = o.shape)) w
  forEachPairX ty o.shape o.base a.shape a.base (constructFromX keep p ty) w n

/-! ### `assign` -/

/-- array.h:2486-2504 `assign(const array&)` (`keep`), 2505-2523 `assign(array&&)`.  The branch for equal base
pointers calls nothing that throws. -/
def assignArrX (keep : Bool) (p : Plan V) (ty : Types V) (this other : Nat) : OpX V := fun w n => do
  let a ← w.get this
  let o ← w.get other
  if a.base = o.base then lift (if keep then assignCopy ty this other else assignMove ty this other) w n
  else
    ((if a.base.isSome && decide (a.shape = o.shape) then lift (destroy ty this)
      else lift (deallocate ty this) ⨟ lift (setShapeMember this o.shape) ⨟ allocateX p ty this) ⨟
    transferX keep p ty this other) w n

/-- array.h:2527-2537 `assign(shape, value)`. -/
def assignFillX (p : Plan V) (ty : Types V) (this : Nat) (shape : Shape) (v : V) : OpX V := fun w n => do
  let a ← w.get this
  let shape := shape.resolve
  ((if a.shape = shape then lift (destroy ty this)
    else lift (deallocate ty this) ⨟ lift (setShapeMember this shape) ⨟ allocateX p ty this) ⨟
  constructX p ty this .copyConstruct v) w n

/-! ### Constructors -/

/-- A constructor that does not delegate: the object is gone if an exception leaves it. -/
def buildX (a : Arr) (body : OpX V) : OpX V := fun w n =>
  unwinding (lift (fun w => .ok (w.push a)) ⨟ body) (fun w' => .ok (w'.setVar w.nextVar none)) w n

/-- array.h:2366-2370 `array(shape, alloc)`. -/
def newShapeAllocX (p : Plan V) (ty : Types V) (shape : Shape) (alloc : Nat) : OpX V := fun w n =>
  buildX ⟨⟨alloc, w.nextVar, false⟩, none, 0, none, shape⟩
    (allocateX p ty w.nextVar ⨟ constructX p ty w.nextVar .defaultConstruct ty.defaultValue) w n

/-- array.h:2371-2375 `array(shape)`. -/
def newShapeX (p : Plan V) (ty : Types V) (shape : Shape) : OpX V := newShapeAllocX p ty shape ty.defaultAlloc

/-- array.h:2354 `array()`. -/
def newDefaultX (p : Plan V) (ty : Types V) : OpX V := newShapeX p ty ty.defaultShape

/-- array.h:2355 `array(alloc)`. -/
def newAllocX (p : Plan V) (ty : Types V) (alloc : Nat) : OpX V := newShapeAllocX p ty ty.defaultShape alloc

/-- array.h:2359-2361 `array(shape, value, alloc)`; the destructor runs if `assign` throws. -/
def newFillAllocX (p : Plan V) (ty : Types V) (shape : Shape) (v : V) (alloc : Nat) : OpX V := fun w n =>
  (newAllocX p ty alloc ⨟ unwinding (assignFillX p ty w.nextVar shape v) (delete ty w.nextVar)) w n

/-- array.h:2362 `array(shape, value)`. -/
def newFillX (p : Plan V) (ty : Types V) (shape : Shape) (v : V) : OpX V := fun w n =>
  (newDefaultX p ty ⨟ unwinding (assignFillX p ty w.nextVar shape v) (delete ty w.nextVar)) w n

/-- array.h:2379-2383 `array(const array&)`. -/
def newCopyX (p : Plan V) (ty : Types V) (other : Nat) : OpX V := fun w n => do
  let o ← w.get other
  buildX ⟨⟨ty.selectOnCopy o.alloc.arena, w.nextVar, false⟩, none, 0, none, ty.defaultShape⟩
    (assignArrX true p ty w.nextVar other) w n

/-- array.h:2387 `array(const array&, alloc)`; the destructor runs if `assign` throws. -/
def newCopyAllocX (p : Plan V) (ty : Types V) (other alloc : Nat) : OpX V := fun w n =>
  (newAllocX p ty alloc ⨟ unwinding (assignArrX true p ty w.nextVar other) (delete ty w.nextVar)) w n

/-- array.h:2402-2406, 2419-2423: the part of `array(array&&)` and `array(array&&, alloc)` that moves the
elements one by one. -/
def newMoveElementsX (p : Plan V) (ty : Types V) (other alloc : Nat) : OpX V := fun w n => do
  let o ← w.get other
  buildX ⟨⟨alloc, w.nextVar, false⟩, none, 0, none, ty.defaultShape⟩
    (lift (setShapeMember w.nextVar o.shape) ⨟ allocateX p ty w.nextVar ⨟
      transferX false p ty w.nextVar other) w n

/-- array.h:2394-2407 `array(array&&)`.  Taking over the memory does not throw. -/
def newMoveX (p : Plan V) (ty : Types V) (other : Nat) : OpX V := fun w n => do
  let o ← w.get other
  if ty.propagateMove || Allocator.eq ⟨allocatorForMove ty o, w.nextVar, false⟩ o.alloc then
    lift (newMove ty other) w n
  else newMoveElementsX p ty other (allocatorForMove ty o) w n

/-- array.h:2414-2424 `array(array&&, alloc)`.  Taking over the memory does not throw. -/
def newMoveAllocX (p : Plan V) (ty : Types V) (other alloc : Nat) : OpX V := fun w n => do
  let o ← w.get other
  if Allocator.eq ⟨alloc, w.nextVar, false⟩ o.alloc then lift (newMoveAlloc ty other alloc) w n
  else newMoveElementsX p ty other alloc w n

/-! ### Assignment operators, `clear`, `reshape`, `swap` -/

/-- array.h:2447-2450: what `operator=(const array&)` does before `assign`. -/
def beforeAssign (ty : Types V) (this : Nat) (o : Arr) : Op V := fun w => do
  if ty.propagateCopy then
    let a ← w.get this
    let w ← if !a.alloc.eq o.alloc then deallocate ty this w else .ok w
    let a ← w.get this
    .ok (w.setVar this (some { a with alloc := { a.alloc with arena := o.alloc.arena } }))
  else .ok w

/-- array.h:2436-2454 `operator=(const array&)`. -/
def copyAssignOpX (p : Plan V) (ty : Types V) (this other : Nat) : OpX V := fun w n => do
  let a ← w.get this
  let o ← w.get other
  if a.base = o.base then lift (copyAssignOp ty this other) w n
  else (lift (beforeAssign ty this o) ⨟ assignArrX true p ty this other) w n

/-- array.h:2460-2481 `operator=(array&&)`.  Only `assign` throws. -/
def moveAssignOpX (p : Plan V) (ty : Types V) (this other : Nat) : OpX V := fun w n => do
  let a ← w.get this
  let o ← w.get other
  if a.base = o.base ∨ ty.propagateMove = true ∨ a.alloc.eq o.alloc = true then
    lift (moveAssignOp ty this other) w n
  else assignArrX false p ty this other w n

/-- array.h:2619-2624 `clear`. -/
def clearX (p : Plan V) (ty : Types V) (this : Nat) : OpX V :=
  lift (deallocate ty this) ⨟ lift (setShapeMember this ty.defaultShape) ⨟ allocateX p ty this ⨟
    constructX p ty this .defaultConstruct ty.defaultValue

/-- array.h:1416-1424 `internal::copy_assign` (`keep`) and `internal::move_assign`. -/
def assignFromX (keep : Bool) (p : Plan V) (ty : Types V) (bs bd : Nat) (q : Int × Int) : OpX V :=
  if keep then calling p .assignment (leaveAt bd q.2 p.dst) (copyAssignAt bs bd q)
  else calling p .assignment (fun w => do leaveAt bd q.2 p.dst (← leaveAt bs q.1 p.src w)) (moveAssignAt ty bs bd q)

/-- array.h:2633-2643: the part of `reshape` in which the local variable `new_array`, number `m`, exists. -/
def reshapeInto (p : Plan V) (ty : Types V) (this m : Nat) (shape : Shape) : OpX V := fun w n => do
  let new ← w.get m
  let a ← w.get this
  let intersection := Shape.clamp shape a.shape
  let ibase := new.base.map fun p => (p.1, p.2 + shape.flatOffset intersection.mins)
  (forEachPairX ty a.shape a.base intersection ibase (assignFromX false p ty) ⨟ moveAssignOpX p ty this m) w n

/-- array.h:2628-2644 `reshape`. -/
def reshapeX (p : Plan V) (ty : Types V) (this : Nat) (shape : Shape) : OpX V := fun w n => do
  let a ← w.get this
  let shape := shape.resolve
  if a.shape = shape then lift .ok w n
  else (newShapeX p ty shape ⨟ scope (reshapeInto p ty this w.nextVar shape) (delete ty w.nextVar)) w n

/-- array.h:2691-2704 `swap`; swapping the members does not throw. -/
def swapX (p : Plan V) (ty : Types V) (this other : Nat) : OpX V := fun w n =>
  if ty.propagateSwap then lift (swap ty this other) w n
  else (newMoveX p ty other ⨟
    scope (moveAssignOpX p ty other this ⨟ moveAssignOpX p ty this w.nextVar) (delete ty w.nextVar)) w n

/-! ### Functions returning a new array -/

/-- array.h:2763-2772 `copy(array_ref, array_ref)` (`keep`), 2834-2843 `move(array_ref, array_ref)`. -/
def assignElementsX (keep : Bool) (p : Plan V) (ty : Types V) (src : Shape) (srcBase : Ptr) (dst : Shape)
    (dstBase : Ptr) : OpX V :=
  if dst.empty then lift .ok
  else lift (assert ty (copyAssert src dst)) ⨟
    forEachPairX ty src srcBase dst dstBase (assignFromX keep p ty)

/-- array.h:2804-2812 `make_copy(array_ref, shape, alloc)` (`keep`), 2866-2873
`make_move(array_ref, shape, alloc)`; the local variable `dst` is destroyed if an exception leaves the
function. -/
def makeFromX (keep : Bool) (p : Plan V) (ty : Types V) (y : Nat) (src : Shape) (off : Int) (shape : Shape)
    (alloc : Nat) : OpX V := fun w n => do
  let o ← w.get y
  (newShapeAllocX p ty shape alloc ⨟ unwinding (fun w' n => do
      let d ← w'.get w.nextVar
      assignElementsX keep p ty src (o.base.map fun p => (p.1, p.2 + off)) d.shape d.base w' n)
    (delete ty w.nextVar)) w n

/-- array.h:2813-2818 `make_copy(array, shape, alloc)`, 2874-2879 `make_move(array&, shape, alloc)`. -/
def makeFromArrayX (keep : Bool) (p : Plan V) (ty : Types V) (y : Nat) (shape : Shape) (alloc : Nat) : OpX V :=
  fun w n => do
    let o ← w.get y
    makeFromX keep p ty y o.shape 0 shape alloc w n

/-- array.h:2880-2887 `make_move(array&&, shape, alloc)`. -/
def makeMoveRvalueX (p : Plan V) (ty : Types V) (y : Nat) (shape : Shape) (alloc : Nat) : OpX V := fun w n => do
  let o ← w.get y
  if o.shape = shape ∧ Allocator.eq ⟨alloc, w.nextVar, false⟩ o.alloc then newCopyX p ty y w n
  else makeFromArrayX false p ty y shape alloc w n

/-! ### Elements and algorithms -/

/-- `a(i...) = v`, array.h:2543-2552. -/
def writeX (p : Plan V) (x : Nat) (i : Index) (v : V) : OpX V := fun w n => do
  let a ← w.get x
  match a.base with
  | none => .error .null
  | some (b, o) => calling p .assignment (leaveAt b (o + a.shape.flatOffset i) p.dst) (write x i v) w n

/-- array.h:2763-2788 `copy` (`keep`) and 2834-2859 `move` from a view of `y` to a view of `x`. -/
def assignRefX (keep : Bool) (p : Plan V) (ty : Types V) (y : Nat) (src : Shape) (soff : Int) (x : Nat) (dst : Shape)
    (doff : Int) : OpX V := fun w n => do
  let o ← w.get y
  let a ← w.get x
  assignElementsX keep p ty src (o.base.map fun p => (p.1, p.2 + soff)) dst
    (a.base.map fun p => (p.1, p.2 + doff)) w n

/-- array.h:2104-2107 `array_ref::for_each_value`, `generate` (2917-2926) and `fill` (2905-2912); the function
called, or its assignment to the element, throws. -/
def forEachRefX (p : Plan V) (ty : Types V) (x : Nat) (s : Shape) (off : Int) (f : Nat → V → V) : OpX V := fun w n => do
  let a ← w.get x
  match a.base with
  | none => lift (assert ty ((optimizeShape s).forEachValueInOrderAssert none)) w n
  | some (b, o) =>
    each (s.forEachValue (some (o + off))).zipIdx (fun q =>
      calling p .assignment (leaveAt b q.1 p.dst) (replaceAt b (f q.2) q.1)) w n

/-- array.h:2931-2954 `transform_index`, `transform_indices`; the function called, or the assignment to the
element, throws. -/
def transformRefX (p : Plan V) (x : Nat) (s : Shape) (off : Int) (f : Index → V) : OpX V := fun w n => do
  let a ← w.get x
  match s.forEachIndex with
  | none => .error .noEnd
  | some tr => each tr (fun i =>
    match a.base with
    | none => fun _ _ => .error .null
    | some (b, o) => calling p .assignment (leaveAt b (o + off + s.flatOffset i) p.dst)
        (assignAt .moveAssign b (o + off + s.flatOffset i) (f i))) w n

/-! ### Programs -/

/-- Executing one statement, in which call number `n` of a function of kind `p.who` throws. -/
def execX (p : Plan V) (ty : Types V) : Cmd V → OpX V
  | .new => newDefaultX p ty
  | .newAlloc al => newAllocX p ty al
  | .newShape s => newShapeX p ty s
  | .newShapeAlloc s al => newShapeAllocX p ty s al
  | .newFill s v => newFillX p ty s v
  | .newFillAlloc s v al => newFillAllocX p ty s v al
  | .newCopy y => newCopyX p ty y
  | .newCopyAlloc y al => newCopyAllocX p ty y al
  | .newMove y => newMoveX p ty y
  | .newMoveAlloc y al => newMoveAllocX p ty y al
  | .delete x => lift (delete ty x)
  | .copyAssign x y => copyAssignOpX p ty x y
  | .moveAssign x y => moveAssignOpX p ty x y
  | .assignCopy x y => assignArrX true p ty x y
  | .assignMove x y => assignArrX false p ty x y
  | .assignFill x s v => assignFillX p ty x s v
  | .clear x => clearX p ty x
  | .reshape x s => reshapeX p ty x s
  | .swap x y => swapX p ty x y
  | .write x i v => writeX p x i v
  | .makeCopy y s al => makeFromArrayX true p ty y s al
  | .makeCopyRef y src off s al => makeFromX true p ty y src off s al
  | .makeMove y s al => makeFromArrayX false p ty y s al
  | .makeMoveRef y src off s al => makeFromX false p ty y src off s al
  | .makeMoveRvalue y s al => makeMoveRvalueX p ty y s al
  | .copyRef y src soff x dst doff => assignRefX true p ty y src soff x dst doff
  | .moveRef y src soff x dst doff => assignRefX false p ty y src soff x dst doff
  | .forEach x s off f => forEachRefX p ty x s off f
  | .transform x s off f => transformRefX p x s off f

/-- A statement of a program that catches all exceptions: nothing throws, or call number `n` of one kind of
functions. -/
inductive Stmt (V : Type) where
  | calm (c : Cmd V)
  | throwing (p : Plan V) (n : Nat) (c : Cmd V)

/-- The statement without its exceptions. -/
def Stmt.cmd : Stmt V → Cmd V
  | .calm c => c
  | .throwing _ _ c => c

/-- `try { statement } catch (...) {}`. -/
def execTry (ty : Types V) : Stmt V → World V → Except Fault (World V)
  | .calm c, w => exec ty c w
  | .throwing p n c, w => do
    match ← execX p ty c w n with
    | .returned w _ => .ok w
    | .thrown w => .ok w

/-- Executing a program whose statements are all inside `try` blocks of their own. -/
def execTryAll (ty : Types V) (ss : List (Stmt V)) (w : World V) : Except Fault (World V) :=
  ss.foldlM (fun w s => execTry ty s w) w

end
end Nda
