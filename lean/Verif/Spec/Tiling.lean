import Verif.Spec.Box
import Verif.Spec.Split
import Verif.Model.Tiling
/-
Specification vocabulary for C77: which cuts are allowed, and how often an index is in the tiles.
-/
namespace Nda.Spec

/-- The preconditions of `split`: a positive factor, and for a compile-time factor at least that many
indices (array.h:617, README.md:246). -/
def CutOk : Cut → Dim → Prop
  | .keep, _ => True
  | .dyn n, _ => 0 < n
  | .fixed N, d => 0 < N ∧ N ≤ d.extent

/-- No dim is split by a compile-time factor that does not divide its extent. -/
def NoOverlap : Cut → Dim → Prop
  | .fixed N, d => N ∣ d.extent
  | _, _ => True

/-- `ns[k]` is the number of pieces dim `k` is cut into. -/
def PieceCount : Cut → Dim → Nat → Prop
  | .keep, _, n => n = 1
  | .dyn f, d, n => IsCeilDiv n d.extent f
  | .fixed f, d, n => IsCeilDiv n d.extent f

end Nda.Spec
