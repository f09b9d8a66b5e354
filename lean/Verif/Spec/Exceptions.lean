import Verif.Model.Exceptions
import Verif.Spec.Array
/-
Programs that catch exceptions.
-/
namespace Nda
open Spec

variable {V : Type}

/-- No constructor of an element throws in this statement. -/
def ConstructsQuietly : Stmt V → Prop
  | .calm _ => True
  | .throwing p _ _ => p.who ≠ .constructor

/-- All statements of a program are allowed where they are executed. -/
def AllowedTryRun (ty : Types V) : List (Stmt V) → World V → Prop
  | [], _ => True
  | s :: ss, w => Allowed ty w s.cmd ∧
    match execTry ty s w with
    | .ok w' => AllowedTryRun ty ss w'
    | .error _ => True

/-- States of programs in which exceptions other than those of constructors of elements have been caught. -/
def TryReachable (ty : Types V) (w : World V) : Prop :=
  ∃ ss, (∀ s ∈ ss, ConstructsQuietly s) ∧ AllowedTryRun ty ss World.start ∧
    execTryAll ty ss World.start = .ok w

/-- The definition of a variable. -/
def Defines : Cmd V → Prop
  | .new | .newAlloc _ | .newShape _ | .newShapeAlloc _ _ | .newFill _ _ | .newFillAlloc _ _ _ | .newCopy _
  | .newCopyAlloc _ _ | .newMove _ | .newMoveAlloc _ _ | .makeCopy _ _ _ | .makeCopyRef _ _ _ _ _ => True
  | _ => False

/-- All arrays and their elements are as before. -/
def AllSame (w w' : World V) : Prop := ∀ z, w'.vars z = w.vars z ∧ ∀ i, elem w' z i = elem w z i

/-! ### Decidability, for the examples -/

instance (s : Stmt V) : Decidable (ConstructsQuietly s) := by cases s <;> unfold ConstructsQuietly <;> infer_instance

def decAllowedTryRun (ty : Types V) : (p : List (Stmt V)) → (w : World V) → Decidable (AllowedTryRun ty p w)
  | [], _ => .isTrue trivial
  | s :: ss, w => by
    unfold AllowedTryRun
    cases h : execTry ty s w with
    | ok w' =>
      have := decAllowedTryRun ty ss w'
      infer_instance
    | error f => infer_instance

instance (ty : Types V) (p : List (Stmt V)) (w : World V) : Decidable (AllowedTryRun ty p w) :=
  decAllowedTryRun ty p w

end Nda
