import Verif.Spec.Box
import Verif.Spec.Threads
/-
Specification vocabulary for C109: the same elements under other indices.
-/
namespace Nda.Spec

/-- The index `i` of `a` is the index `φ i` of `a'`: both denote the same element, and these are all indices of `a'`. -/
structure Relabels (φ : Index → Index) (a a' : ArrayRef) : Prop where
  same : ∃ b b', a.base = some b ∧ a'.base = some b' ∧ ∀ i, InBox a.shape i → b' + offsetOf a'.shape (φ i) = b + offsetOf a.shape i
  into : ∀ i, InBox a.shape i → InBox a'.shape (φ i)
  onto : ∀ j, InBox a'.shape j → ∃ i, InBox a.shape i ∧ φ i = j
  inj : ∀ i j, InBox a.shape i → InBox a.shape j → φ i = φ j → i = j

/-- For each dim: whether it is reversed, and its new min. -/
abbrev NewDims := List (Bool × Int)

/-- The dims with new mins, those to be reversed with the opposite stride. -/
def newShape : NewDims → List Dim → List Dim
  | (r, x) :: l, d :: s => ⟨x, d.extent, if r then -d.stride else d.stride⟩ :: newShape l s
  | _, _ => []

/-- The distance of the new first element from the old one. -/
def newStart : NewDims → List Dim → Int
  | (r, _) :: l, d :: s => (if r then (d.extent - 1) * d.stride else 0) + newStart l s
  | _, _ => 0

/-- The new index of an element. -/
def newIndex : NewDims → List Dim → List Int → List Int
  | (r, x) :: l, d :: s, i :: is => (if r then x + (d.min + d.extent - 1 - i) else x + (i - d.min)) :: newIndex l s is
  | _, _, _ => []

/-- An array and a copy of it or of a part of it: the indices of the second one are among those of the first one, and they share no
elements. -/
def CopyOf (a b : ArrayRef) : Prop :=
  List.length a.shape = List.length b.shape ∧ (∀ i, InBox b.shape i → InBox a.shape i) ∧ ∀ x, ElementAt a x → ¬ ElementAt b x

/-- Each index has an element of its own. -/
def OwnElements (a : ArrayRef) : Prop := a.base ≠ none ∧ (∀ d ∈ a.shape, 0 ≤ d.extent) ∧ Injective a.shape

end Nda.Spec
