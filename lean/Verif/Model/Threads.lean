import Verif.Model.Tiling
import Verif.Model.Ein
/-
Several threads, each executing one call of an algorithm on views of a common memory.  The library has no
threads and no synchronisation of its own; what it does have is a fixed sequence of accesses to elements
for each call, and that is what is modelled: the accesses of array.h:2101-2107 (`for_each_value`),
2763-2772 (`copy`), 2834-2843 (`move`), 2905-2908 (`fill`), 2930-2935 (`transform_index`), 2956-2968 (`equal`) and
ein_reduce.h:418-443 (`ein_reduce`), in the order in which they are made.  Each element is one memory
location, accesses of different threads are interleaved arbitrarily.

Simplifications: every access is one step (sequentially consistent, which C++ guarantees to programs
without data races); callables given to the algorithms do not access the memory; `generate`, whose
generator is shared state, is not included.
-/
namespace Nda

/-- One access to an element.  A thread keeps the values it has read in its registers, one for each address;
the value it writes depends on these only. -/
inductive Access (α : Type) where
  | read (a : Int)
  | write (a : Int) (f : (Int → α) → α)

/-- What one thread does, in order. -/
abbrev Thread (α : Type) := List (Access α)

section
variable {α : Type}

/-- The element accessed. -/
def Access.address : Access α → Int
  | .read a => a
  | .write a _ => a

/-- Is the element changed? -/
def Access.isWrite : Access α → Bool
  | .read _ => false
  | .write _ _ => true

/-- The registers of the thread and the memory after one access. -/
def Access.exec (x : Access α) (r : Int → α) (m : Mem α) : (Int → α) × Mem α :=
  match x with
  | .read a => (Mem.set r a (m a), m)
  | .write a f => (r, m.set a (f r))

/-- A thread without others. -/
def Thread.run : Thread α → (Int → α) → Mem α → (Int → α) × Mem α
  | [], r, m => (r, m)
  | x :: t, r, m => Thread.run t (x.exec r m).1 (x.exec r m).2

/-- Several threads in the course of their execution: what is left to do for each of them, their registers, and
the memory. -/
structure Running (ι α : Type) where
  rest : ι → Thread α
  regs : ι → Int → α
  mem : Mem α

/-- Thread `k` makes its next access. -/
def Running.step {ι : Type} [DecidableEq ι] (c : Running ι α) (k : ι) : Running ι α :=
  match c.rest k with
  | [] => c
  | x :: t =>
    { rest := fun j => if j = k then t else c.rest j
      regs := fun j => if j = k then (x.exec (c.regs k) c.mem).1 else c.regs j
      mem := (x.exec (c.regs k) c.mem).2 }

/-- The threads make their accesses in the order given by a schedule. -/
def interleave {ι : Type} [DecidableEq ι] (ts : ι → Thread α) (sched : List ι) (r : Int → α) (m : Mem α) :
    Running ι α :=
  sched.foldl Running.step ⟨ts, fun _ => r, m⟩

/-- The threads of a list. -/
def threads (l : List (Thread α)) : Nat → Thread α := fun k => l.getD k []

/-- array.h:2905-2908 `fill`. -/
def fillThread (dst : ArrayRef) (v : α) : Thread α := dst.forEachValue.map fun x => .write x fun _ => v

/-- array.h:2101-2107 `for_each_value([](T& x) { x = g(x); })`. -/
def updateThread (a : ArrayRef) (g : α → α) : Thread α :=
  a.forEachValue.flatMap fun x => [.read x, .write x fun r => g (r x)]

/-- array.h:2763-2772 `copy`, 1421-1424 `copy_assign`. -/
def copyThread (conv : α → α) (src dst : ArrayRef) : Thread α :=
  (copyTrace src dst).flatMap fun p => [.read p.1, .write p.2 fun r => conv (r p.1)]

/-- array.h:2834-2843 `move`, 1416-1419 `move_assign`. -/
def moveThread (conv moved : α → α) (src dst : ArrayRef) : Thread α :=
  (copyTrace src dst).flatMap fun p =>
    [.read p.1, .write p.1 fun r => moved (r p.1), .write p.2 fun r => conv (r p.1)]

/-- array.h:2930-2935 `transform_index`. -/
def transformIndexThread (dst : ArrayRef) (fn : Index → α) : Option (Thread α) := do
  let tr ← dst.shape.forEachIndex
  tr.mapM fun i => do
    let a ← dst.at_ i
    pure (.write a fun _ => fn i)

/-- array.h:2956-2968 `equal`. -/
def equalThread (a b : ArrayRef) : Thread α :=
  if a.shape.mins ≠ b.shape.mins ∨ a.shape.extents ≠ b.shape.extents then []
  else (copyForEachValue a.shape a.base b.shape b.base).flatMap fun p => [.read p.1, .read p.2]

/-- ein_reduce.h:84-87, 121-124, 137-140, 164-167, 176-181: the elements `operator()` of an expression reads;
`none`: null dereference. -/
def EinExpr.reads (i : Index) : EinExpr α → Option (List Int)
  | .op o =>
    match o.op with
    | .arr base dims => base.map fun b => [b + (values dims).flatOffset (o.args i)]
    | .fn _ => some []
  | .unary _ e => e.reads i
  | .binary _ a b => do
    let x ← a.reads i
    let y ← b.reads i
    pure (x ++ y)

/-- ein_reduce.h:164-167 with `op` one of `=`, `+=`, `-=`, `*=`: the accesses for one loop index. -/
def einStepThread (f : α → α → α) (lhs : EinOp α) (rhs : EinExpr α) (i : Index) : Option (Thread α) := do
  let rs ← rhs.reads i
  let a ← lhs.address i
  pure (rs.map .read ++ [.read a, .write a fun r => ((rhs.eval r i).map (f (r a))).getD (r a)])

/-- ein_reduce.h:418-443 `ein_reduce(lhs op rhs)`. -/
def einThread (f : α → α → α) (lhs : EinOp α) (rhs : EinExpr α) : Option (Thread α) := do
  let tr ← (einLoopShape lhs rhs).forEachIndex
  let ts ← tr.mapM (einStepThread f lhs rhs)
  pure ts.flatten

/-- A call of an algorithm. -/
inductive AlgoCall (α : Type) where
  | fill (dst : ArrayRef) (v : α)
  | update (a : ArrayRef) (g : α → α)
  | copy (conv : α → α) (src dst : ArrayRef)
  | move (conv moved : α → α) (src dst : ArrayRef)
  | transformIndex (dst : ArrayRef) (fn : Index → α)
  | equal (a b : ArrayRef)
  | ein (f : α → α → α) (lhs : EinOp α) (rhs : EinExpr α)

/-- What the call does to the memory when no other thread is running: `Verif.Model.Algorithms`, `Tiling` and
`Ein`. -/
def AlgoCall.exec : AlgoCall α → Mem α → Option (Mem α)
  | .fill dst v, m => some (Nda.fill dst v m)
  | .update a g, m => some (updateValues a g m)
  | .copy conv src dst, m => some (Nda.copy conv src dst m)
  | .move conv moved src dst, m => some (Nda.move conv moved src dst m)
  | .transformIndex dst fn, m => Nda.transformIndex dst fn m
  | .equal _ _, m => some m
  | .ein f lhs rhs, m => einReduce f lhs rhs m

/-- The accesses it makes. -/
def AlgoCall.thread : AlgoCall α → Option (Thread α)
  | .fill dst v => some (fillThread dst v)
  | .update a g => some (updateThread a g)
  | .copy conv src dst => some (copyThread conv src dst)
  | .move conv moved src dst => some (moveThread conv moved src dst)
  | .transformIndex dst fn => transformIndexThread dst fn
  | .equal a b => some (equalThread a b)
  | .ein f lhs rhs => einThread f lhs rhs

end
end Nda
