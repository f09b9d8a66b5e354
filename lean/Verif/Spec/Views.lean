import Verif.Model.Ref
/-
Specification vocabulary for crops and slices: which element of the original an index of the
result denotes.
-/
namespace Nda.Spec

/-- Insert the sliced indices: `j` has one coordinate per non-index argument. -/
def fullIndex : List Arg → List Int → List Int
  | .idx i :: as, j => i :: fullIndex as j
  | _ :: as, x :: j => x :: fullIndex as j
  | _, _ => []

/-- Number of dims left after slicing. -/
def keptRank : List Arg → Nat
  | [] => 0
  | .idx _ :: as => keptRank as
  | _ :: as => keptRank as + 1

/-- Index of the original that a `reorder<is...>` index `j` denotes: kept dims take their
coordinate, dropped dims their min. -/
def fixDropped (s : List Dim) (is : List Nat) (j : List Int) : List Int :=
  (List.range s.length).map fun k =>
    if k ∈ is then j.getD (is.idxOf k) 0 else (s.getD k default).min

end Nda.Spec
