import Verif.Spec.Tiling
import Verif.Model.TileLevels
/-
Specification vocabulary for C102: the extents that the loops of each level meet.
-/
namespace Nda.Spec

/-- An extent `e` is cut into pieces of which some have the extent `e'`. -/
def PieceExtent : Cut → Int → Int → Prop
  | .keep, e, e' => e' = e
  | .dyn n, e, e' => (e' = n ∧ n ≤ e) ∨ (e' = e % n ∧ e % n ≠ 0)
  | .fixed N, _, e' => e' = N

/-- The property holds for each cut and each extent that it is applied to, if the first one is applied to `e`. -/
def AtEach (P : Cut → Int → Prop) : List Cut → Int → Prop
  | [], _ => True
  | c :: cs, e => P c e ∧ ∀ e', PieceExtent c e e' → AtEach P cs e'

/-- The preconditions of `split` hold in all levels. -/
def LevelsFit (cs : List Cut) (e : Int) : Prop := AtEach (fun c e => CutOk c ⟨0, e, 1⟩) cs e

/-- Compile-time factors divide the extents, in all levels. -/
def LevelsApart (cs : List Cut) (e : Int) : Prop := AtEach (fun c e => NoOverlap c ⟨0, e, 1⟩) cs e

/-- The levels have one cut for each dim, and those of a dim satisfy the condition with its extent. -/
def Levels (P : List Cut → Int → Prop) (levels : List (List Cut)) (s : Shape) : Prop :=
  (∀ cs ∈ levels, cs.length = s.length) ∧ ∀ (k : Nat) d, s[k]? = some d → P (levels.filterMap (·[k]?)) d.extent

end Nda.Spec
