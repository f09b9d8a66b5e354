import Verif.Model.Array
/-
Vocabulary for comparing two runs of programs that differ only in the values of elements, which may even be of
different types.  `R u v` says that the values `u` and `v` correspond.
-/
namespace Nda

variable {V U : Type}

/-- Both go wrong in the same way, or both succeed with results that correspond. -/
def Both {α β : Type} (S : α → β → Prop) : Except Fault α → Except Fault β → Prop
  | .ok a, .ok b => S a b
  | .error f, .error g => f = g
  | _, _ => False

/-- The same allocation, with values that correspond where there are elements. -/
structure BlockRel (R : V → U → Prop) (p : Block V) (q : Block U) : Prop where
  source : q.source = p.source
  size : q.size = p.size
  live : q.live = p.live
  val : ∀ o, p.live o ≠ 0 → R (p.val o) (q.val o)

/-- The same arrays in the same memory with values that correspond, after the same calls of member functions of the
element type. -/
structure WorldRel (R : V → U → Prop) (w : World V) (z : World U) : Prop where
  heap : ∀ b, Option.Rel (BlockRel R) (w.heap b) (z.heap b)
  nextBlock : z.nextBlock = w.nextBlock
  vars : z.vars = w.vars
  nextVar : z.nextVar = w.nextVar
  calls : z.calls = w.calls

/-- The types of two programs differ only in their values, and default and moved-from values correspond.  Nothing is
asked about the contents of uninitialised memory. -/
structure TypesRel (R : V → U → Prop) (ty : Types V) (tz : Types U) : Prop where
  debug : tz.debug = ty.debug
  inlineSize : tz.inlineSize = ty.inlineSize
  propagateCopy : tz.propagateCopy = ty.propagateCopy
  propagateMove : tz.propagateMove = ty.propagateMove
  propagateSwap : tz.propagateSwap = ty.propagateSwap
  selectOnCopy : tz.selectOnCopy = ty.selectOnCopy
  defaultAlloc : tz.defaultAlloc = ty.defaultAlloc
  defaultShape : tz.defaultShape = ty.defaultShape
  defaultValue : R ty.defaultValue tz.defaultValue
  moved : ∀ u v, R u v → R (ty.moved u) (tz.moved v)

/-- Two statements differ only in values, which correspond. -/
inductive CmdRel (R : V → U → Prop) : Cmd V → Cmd U → Prop
  | new : CmdRel R .new .new
  | newAlloc (al : Nat) : CmdRel R (.newAlloc al) (.newAlloc al)
  | newShape (s : Shape) : CmdRel R (.newShape s) (.newShape s)
  | newShapeAlloc (s : Shape) (al : Nat) : CmdRel R (.newShapeAlloc s al) (.newShapeAlloc s al)
  | newFill (s : Shape) {u : V} {v : U} (h : R u v) : CmdRel R (.newFill s u) (.newFill s v)
  | newFillAlloc (s : Shape) {u : V} {v : U} (h : R u v) (al : Nat) : CmdRel R (.newFillAlloc s u al) (.newFillAlloc s v al)
  | newCopy (y : Nat) : CmdRel R (.newCopy y) (.newCopy y)
  | newCopyAlloc (y al : Nat) : CmdRel R (.newCopyAlloc y al) (.newCopyAlloc y al)
  | newMove (y : Nat) : CmdRel R (.newMove y) (.newMove y)
  | newMoveAlloc (y al : Nat) : CmdRel R (.newMoveAlloc y al) (.newMoveAlloc y al)
  | delete (x : Nat) : CmdRel R (.delete x) (.delete x)
  | copyAssign (x y : Nat) : CmdRel R (.copyAssign x y) (.copyAssign x y)
  | moveAssign (x y : Nat) : CmdRel R (.moveAssign x y) (.moveAssign x y)
  | assignCopy (x y : Nat) : CmdRel R (.assignCopy x y) (.assignCopy x y)
  | assignMove (x y : Nat) : CmdRel R (.assignMove x y) (.assignMove x y)
  | assignFill (x : Nat) (s : Shape) {u : V} {v : U} (h : R u v) : CmdRel R (.assignFill x s u) (.assignFill x s v)
  | clear (x : Nat) : CmdRel R (.clear x) (.clear x)
  | reshape (x : Nat) (s : Shape) : CmdRel R (.reshape x s) (.reshape x s)
  | swap (x y : Nat) : CmdRel R (.swap x y) (.swap x y)
  | write (x : Nat) (i : Index) {u : V} {v : U} (h : R u v) : CmdRel R (.write x i u) (.write x i v)
  | makeCopy (y : Nat) (s : Shape) (al : Nat) : CmdRel R (.makeCopy y s al) (.makeCopy y s al)
  | makeCopyRef (y : Nat) (src : Shape) (off : Int) (s : Shape) (al : Nat) :
      CmdRel R (.makeCopyRef y src off s al) (.makeCopyRef y src off s al)
  | makeMove (y : Nat) (s : Shape) (al : Nat) : CmdRel R (.makeMove y s al) (.makeMove y s al)
  | makeMoveRef (y : Nat) (src : Shape) (off : Int) (s : Shape) (al : Nat) :
      CmdRel R (.makeMoveRef y src off s al) (.makeMoveRef y src off s al)
  | makeMoveRvalue (y : Nat) (s : Shape) (al : Nat) : CmdRel R (.makeMoveRvalue y s al) (.makeMoveRvalue y s al)
  | copyRef (y : Nat) (src : Shape) (soff : Int) (x : Nat) (dst : Shape) (doff : Int) :
      CmdRel R (.copyRef y src soff x dst doff) (.copyRef y src soff x dst doff)
  | moveRef (y : Nat) (src : Shape) (soff : Int) (x : Nat) (dst : Shape) (doff : Int) :
      CmdRel R (.moveRef y src soff x dst doff) (.moveRef y src soff x dst doff)
  | forEach (x : Nat) (s : Shape) (off : Int) {f : Nat → V → V} {g : Nat → U → U}
      (h : ∀ k u v, R u v → R (f k u) (g k v)) : CmdRel R (.forEach x s off f) (.forEach x s off g)
  | transform (x : Nat) (s : Shape) (off : Int) {f : Index → V} {g : Index → U} (h : ∀ i, R (f i) (g i)) :
      CmdRel R (.transform x s off f) (.transform x s off g)

end Nda
