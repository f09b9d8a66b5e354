import Verif.Spec.Box
import Verif.Model.Pointers
/-
Specification of the pointers a loop computes (C73).
-/
namespace Nda.Spec

/-- `q` is not before the first and at most one past the last of the elements of a shape whose element with the smallest indices is
at `b`. -/
def Between (s : List Dim) (b q : Int) : Prop :=
  (∃ i, InBox s i ∧ b + offsetOf s i ≤ q) ∧ ∃ i, InBox s i ∧ q ≤ b + offsetOf s i + 1

/-- The calls of `fn` in a trace. -/
def calls {P : Type} : List (LoopEvent P) → List P
  | [] => []
  | .call p :: l => p :: calls l
  | .form _ :: l => calls l

/-- How far the elements of the dims with a smaller stride than `d` reach. -/
def reachBelow (s : List Dim) (d : Dim) : Int :=
  ((s.filter fun e => decide (e.stride < d.stride)).map fun e => (e.extent - 1) * e.stride).sum

/-- No stride is negative, and no stride leaves a gap after the elements of the dims with smaller strides. -/
def NoGaps (s : List Dim) : Prop := ∀ d ∈ s, 0 ≤ d.stride ∧ d.stride ≤ 1 + reachBelow s d

end Nda.Spec
