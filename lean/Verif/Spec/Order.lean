import Verif.Spec.Box
/-
Specification vocabulary for the order in which memory is visited (C61).
-/
namespace Nda.Spec

/-- Each dim with more than one index steps over everything that the dims before it reach together; these reach
`r` to begin with. -/
def Stacked : Int → List Dim → Prop
  | _, [] => True
  | r, d :: ds => (1 < d.extent → r < d.stride) ∧ Stacked (r + (d.extent - 1) * d.stride) ds

/-- The dims can be arranged so that each steps over all before it, as in rows, planes, volumes. -/
def Stackable (s : List Dim) : Prop := ∃ p : List Dim, p.Perm s ∧ Stacked 0 p

/-- Dims with more than one index go forward in memory. -/
def Forward (s : List Dim) : Prop := ∀ d ∈ s, 1 < d.extent → 0 < d.stride

/-- The elements of a shape are `n` consecutive places, starting at offset 0. -/
def Gapless (s : List Dim) (n : Int) : Prop := ∀ o, (∃ i, InBox s i ∧ offsetOf s i = o) ↔ 0 ≤ o ∧ o < n

end Nda.Spec
