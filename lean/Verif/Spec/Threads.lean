import Verif.Model.Threads
import Verif.Spec.Ein
/-
Specification vocabulary for C88: data races and complete executions.
-/
namespace Nda.Spec

variable {ι α : Type}

/-- [intro.races]: two accesses conflict if they concern the same element and at least one changes it. -/
def Conflict (x y : Access α) : Prop := x.address = y.address ∧ (x.isWrite = true ∨ y.isWrite = true)

/-- No two threads make conflicting accesses; with no synchronisation between them, this is what it means that
the program has no data race. -/
def NoRace (ts : ι → Thread α) : Prop := ∀ j k, j ≠ k → ∀ x ∈ ts j, ∀ y ∈ ts k, ¬ Conflict x y

/-- The schedule lets every thread finish: it names each thread as often as that has accesses to make. -/
def Finishes [DecidableEq ι] (ts : ι → Thread α) (sched : List ι) : Prop :=
  ∀ k, (ts k).length ≤ sched.count k

/-- The address of an element of a view. -/
def ElementAt (a : ArrayRef) (x : Int) : Prop := ∃ b i, a.base = some b ∧ InBox a.shape i ∧ x = b + offsetOf a.shape i

/-- The elements a call may change: those of the view it writes to; a move also changes what it moves from. -/
def Changes : AlgoCall α → Int → Prop
  | .fill dst _, x => ElementAt dst x
  | .update a _, x => ElementAt a x
  | .copy _ _ dst, x => ElementAt dst x
  | .move _ _ src dst, x => ElementAt src x ∨ ElementAt dst x
  | .transformIndex dst _, x => ElementAt dst x
  | .equal _ _, _ => False
  | .ein _ lhs _, x => OpElement lhs x

/-- The elements a call may look at. -/
def LooksAt : AlgoCall α → Int → Prop
  | .fill _ _, _ => False
  | .update a _, x => ElementAt a x
  | .copy _ src _, x => ElementAt src x
  | .move _ _ src _, x => ElementAt src x
  | .transformIndex _ _, _ => False
  | .equal a b, x => ElementAt a x ∨ ElementAt b x
  | .ein _ lhs rhs, x => OpElement lhs x ∨ ∃ o ∈ leaves rhs, OpElement o x

/-- The preconditions of the calls. -/
def Valid : AlgoCall α → Prop
  | .fill dst _ => NonNeg dst.shape ∧ dst.base ≠ none
  | .update a _ => NonNeg a.shape ∧ a.base ≠ none
  | .copy _ src dst | .move _ _ src dst => NonNeg dst.shape ∧ src.base ≠ none ∧ dst.base ≠ none ∧
      List.length src.shape = dst.shape.length ∧ ∀ i, InBox dst.shape i → InBox src.shape i
  | .transformIndex dst _ => NonNeg dst.shape ∧ dst.base ≠ none
  | .equal a b => NonNeg a.shape ∧ NonNeg b.shape ∧ a.base ≠ none ∧ b.base ≠ none ∧
      List.length a.shape = b.shape.length
  | .ein _ lhs rhs => EinInput lhs rhs ∧ einAssert lhs rhs = true ∧ ∃ b ds, lhs.op = .arr (some b) ds

/-- Neither call changes what the other changes or looks at. -/
def Independent (c d : AlgoCall α) : Prop :=
  ∀ x, (Changes c x → ¬ Changes d x ∧ ¬ LooksAt d x) ∧ (Changes d x → ¬ LooksAt c x)

end Nda.Spec
