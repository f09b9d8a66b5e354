import Verif.Model.TestMain
import Mathlib.Data.List.Forall2
/-
Specification vocabulary for C105: patterns of file names, and tests one after the other.
-/
namespace Nda.Spec

/-- What one character of a pattern stands for. -/
def StandsFor (c : Char) (part : List Char) : Prop :=
  if c = '*' then True else if c = '?' then part.length = 1 else part = [c]

/-- The string is the pattern with each character replaced by something that it stands for. -/
def Matches (pattern str : List Char) : Prop := ∃ parts, List.Forall₂ StandsFor pattern parts ∧ parts.flatten = str

/-- Tests run one after the other, from a state to a state, with how each ended. -/
inductive Runs {σ : Type} : List (Test σ) → σ → List TestEnd → σ → Prop
  | nil (s : σ) : Runs [] s [] s
  | cons {t : Test σ} {ts : List (Test σ)} {s s' s'' : σ} {e : TestEnd} {es : List TestEnd} :
      t.body s = some (s', e) → Runs ts s' es s'' → Runs (t :: ts) s (e :: es) s''

end Nda.Spec
