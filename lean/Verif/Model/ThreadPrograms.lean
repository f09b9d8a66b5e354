import Verif.Model.Threads
import Verif.Model.EinTiling
/-
Threads that make several calls one after the other (for example one for each tile that a thread takes from a queue), and programs that
wait for all threads before they go on (README.md:338-344 and README.md:229-239 with the loops over tiles divided among threads).  As in
`Verif/Model/Threads.lean`, accesses of different threads are interleaved arbitrarily.
-/
namespace Nda
variable {α : Type}

/-- The accesses of a thread that makes the calls one after the other. -/
def programThread (p : List (AlgoCall α)) : Option (Thread α) := (p.mapM AlgoCall.thread).map List.flatten

/-- The calls one after the other, without other threads. -/
def runCalls (p : List (AlgoCall α)) (m : Mem α) : Option (Mem α) := p.foldlM (fun m c => c.exec m) m

/-- Several threads at the same time, until all have finished. -/
def parallel (ps : List (List (AlgoCall α))) (sched : List Nat) (r : Int → α) (m : Mem α) : Option (Mem α) :=
  (ps.mapM programThread).map fun ts => (interleave (threads ts) sched r m).mem

/-- Phases: the threads of the next one start when all threads of one have finished. -/
def phases (l : List (List (List (AlgoCall α)) × List Nat)) (r : Int → α) (m : Mem α) : Option (Mem α) :=
  l.foldlM (fun m x => parallel x.1 x.2 r m) m

/-- README.md:340-342 for one tile: the calls of `reduceTile`. -/
def reduceCalls (f : α → α → α) (init : Option α) (cs : List Cut) (base : Option Int) (dims : List SDim) (is : List Nat)
    (rhs : EinExpr α) (t : List Arg) : List (AlgoCall α) :=
  match init with
  | some v => [.fill (ArrayRef.crop ⟨base, values dims⟩ t) v, .ein f (einTile cs base dims is t) rhs]
  | none => [.ein f (einTile cs base dims is t) rhs]

end Nda
