import Verif.Spec.Threads
import Verif.Model.ThreadPrograms
/-
Specification vocabulary for C108.
-/
namespace Nda.Spec
variable {α : Type}

/-- No call of one program changes what a call of the other changes or looks at; calls of the same program may. -/
def Separate (p q : List (AlgoCall α)) : Prop := ∀ c ∈ p, ∀ d ∈ q, Independent c d

/-- The schedule lets the threads of all programs finish. -/
def LetsFinish (ps : List (List (AlgoCall α))) (sched : List Nat) : Prop :=
  ∀ ts, ps.mapM programThread = some ts → Finishes (threads ts) sched

end Nda.Spec
