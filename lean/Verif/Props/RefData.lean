import Verif.Model.Ref
import Verif.Lemmas.Algorithms
/-
C02 and C03 for references to arrays: `data()` and `empty()`.
-/
namespace Nda
open Spec

/-- C02: `data()` is the lowest address of an element, also if some dims go backward. -/
theorem C02_data (a : ArrayRef) (b : Int) (hb : a.base = some b) (h : Pos a.shape) :
    ∃ x, a.data = some x ∧ (∃ i, InBox a.shape i ∧ a.at_ i = some x) ∧
      ∀ i, InBox a.shape i → ∃ y, a.at_ i = some y ∧ x ≤ y := by
  obtain ⟨i, hi, ho⟩ := exists_flatMin h
  unfold ArrayRef.data ArrayRef.at_
  rw [hb]
  refine ⟨b + a.shape.flatMin, rfl, ⟨i, hi, ?_⟩, fun j hj => ⟨_, rfl, ?_⟩⟩
  · simp only [Option.map_some, flatOffset_eq]; rw [ho]
  · have := (offsetOf_bounds hj).1; beta_reduce; rw [flatOffset_eq]; omega

/-- C03: a reference is empty exactly if it refers to no element: it is null or its shape has no index. -/
theorem C03_ref_empty (a : ArrayRef) (h : NonNeg a.shape) :
    a.empty = true ↔ a.base = none ∨ ∀ i, ¬ InBox a.shape i := by
  unfold ArrayRef.empty
  cases hb : a.base with
  | none => simp
  | some b =>
    simp only [Option.isSome_some, if_true, reduceCtorEq, false_or]
    rw [empty_iff_not_pos h, ← not_exists, exists_inBox_iff]

/-- C03: `data()` of a null reference is null. -/
theorem C03_null_data (a : ArrayRef) : a.data = none ↔ a.base = none := by
  unfold ArrayRef.data pointerAdd
  cases a.base <;> simp

/-- A flipped image: the first element is not the lowest. -/
example : (ArrayRef.mk (some 100) [⟨0, 3, 1⟩, ⟨0, 2, -3⟩]).data = some 97 ∧
    (ArrayRef.mk (some 100) [⟨0, 3, 1⟩, ⟨0, 2, -3⟩]).at_ [0, 1] = some 97 ∧
    (ArrayRef.mk none [⟨0, 3, 1⟩]).empty = true ∧ (ArrayRef.mk (some 7) [⟨0, 3, 1⟩]).empty = false := by decide

end Nda
