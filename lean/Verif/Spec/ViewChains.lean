import Verif.Spec.Box
import Verif.Spec.Strides
import Verif.Spec.Views
import Verif.Model.ViewChains
/-
Specification vocabulary for chains of views: when a step is allowed, and which index of the original an index of the
view means.
-/
namespace Nda.Spec

/-- An argument of a crop or slice is inside the dim. -/
def ArgInside (d : Dim) : Arg → Prop
  | .idx x => d.min ≤ x ∧ x < d.min + d.extent
  | .ivl v => 0 ≤ v.extent ∧ d.min ≤ v.min ∧ v.min + v.extent ≤ d.min + d.extent
  | .dm v => 0 ≤ v.extent ∧ d.min ≤ v.min ∧ v.min + v.extent ≤ d.min + d.extent
  | .all => True

/-- What a caller must make sure of before a step, for a view of shape `s`. -/
def ViewOpOk (s : Shape) : ViewOp → Prop
  | .crop args => List.Forall₂ ArgInside s args
  | .transpose is => is.Perm (List.range s.length)
  | .reorder is => is.Nodup ∧ (∀ k ∈ is, k < s.length) ∧
      ∀ k, k < s.length → k ∉ is → 0 < (s.getD k default).extent
  | .cropImage x0 y0 x1 y1 _ => ∃ dx dy dc, s = [dx, dy, dc] ∧
      max x0 dx.min ≤ min x1 (dx.min + dx.extent) ∧ max y0 dy.min ≤ min y1 (dy.min + dy.extent)
  | .sliceChannel c => ∃ dx dy dc, s = [dx, dy, dc] ∧ dc.min ≤ c ∧ c < dc.min + dc.extent
  | .convert ts => convertShapeAssert ts s = true ∧ ∀ d ∈ convertShape ts s, Known d

/-- The index, in the view of shape `s` that a step is applied to, of the element at index `j` of the result. -/
def origIndex (s : Shape) : ViewOp → Index → Index
  | .crop args, j => fullIndex args j
  | .transpose is, j => fixDropped s is j
  | .reorder is, j => fixDropped s is j
  | .cropImage _ _ _ _ .crop, j => j
  | .cropImage x0 y0 _ _ .zero, [x, y, c] => match s with
    | [dx, dy, _] => [x + max x0 dx.min, y + max y0 dy.min, c]
    | _ => [x, y, c]
  | .cropImage _ _ _ _ .zero, j => j
  | .sliceChannel c, j => j ++ [c]
  | .convert _, j => (j ++ (s.drop j.length).map Dim.min).take s.length

/-- All steps are allowed, each for the shape of the view so far. -/
def ViewChainOk : List ViewOp → Shape → Prop
  | [], _ => True
  | op :: ops, s => ViewOpOk s op ∧ ViewChainOk ops (op.apply ⟨some 0, s⟩).shape

/-- The index of the array that index `j` of the last view means. -/
def chainIndex : List ViewOp → Shape → Index → Index
  | [], _, j => j
  | op :: ops, s, j => origIndex s op (chainIndex ops (op.apply ⟨some 0, s⟩).shape j)

/-- A shape `r` at distance `off` is a view of the elements of shape `s`: index `j` of the view means index `φ j`, and
different indices mean different ones. -/
structure ViewOf (s r : Shape) (off : Int) (φ : Index → Index) : Prop where
  nonNeg : NonNeg r
  known : ∀ d ∈ r, Known d
  inside : ∀ j, InBox r j → InBox s (φ j)
  offset : ∀ j, InBox r j → offsetOf s (φ j) = off + offsetOf r j
  inj : ∀ i j, InBox r i → InBox r j → φ i = φ j → i = j

end Nda.Spec
