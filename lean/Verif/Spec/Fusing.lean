import Verif.Spec.Pointers
import Mathlib.Data.List.Chain
/-
Specification of loop nests that are as short as possible (C86).
-/
namespace Nda.Spec

/-- The loops of a nest that do not run exactly once. -/
def loopCount (s : List Dim) : Nat := (s.filter fun d => d.extent ≠ 1).length

/-- How often a trace computes a new pointer. -/
def pointerSteps {P : Type} : List (LoopEvent P) → Nat
  | [] => 0
  | .call _ :: l => pointerSteps l
  | .form _ :: l => pointerSteps l + 1

/-- No two neighbouring loops of a nest could be one: the outer never steps just past what the inner visits. -/
def Unfusible (s : List Dim) : Prop := s.IsChain fun inner outer => inner.extent * inner.stride ≠ outer.stride

end Nda.Spec
