import Verif.Model.NullViews
import Verif.Spec.NullViews
import Verif.Lemmas.ArrayShape
import Verif.Props.Algorithms
import Verif.Props.Views
/-
C90: array_refs without memory.
-/
namespace Nda
open Spec
variable {α : Type}

theorem not_inBox_iff_empty {s : Shape} (h : NonNeg s) : s.empty = true ↔ ∀ i, ¬ InBox s i := by
  rw [empty_iff_not_pos h, ← exists_inBox_iff, not_exists]

/-- C90: the assertion of `for_each_value`, `fill` and `generate` holds exactly for refs that have memory for their
elements; without memory nothing is called. -/
theorem C90_for_each_value (a : ArrayRef) (h : NonNeg a.shape) :
    (a.forEachValueAssert = true ↔ Backed a) ∧ (a.base = none → a.forEachValue = []) := by
  constructor
  · unfold ArrayRef.forEachValueAssert Shape.forEachValueInOrderAssert Backed
    rw [optimizeShape_empty, Bool.or_eq_true, not_inBox_iff_empty h]
    cases a.base with
    | none => simp
    | some b => simp
  · intro hb
    unfold ArrayRef.forEachValue Shape.forEachValue
    rw [hb]
    rfl

theorem copyForEachValueAssert_iff {src dst : Shape} (hl : List.length src = List.length dst) (h : NonNeg dst)
    (sb db : Option Int) : copyForEachValueAssert src sb dst db = true ↔
      (sb ≠ none ∧ db ≠ none) ∨ ∀ i, ¬ InBox dst i := by
  unfold copyForEachValueAssert Shape.forEachValueInOrder2Assert
  rw [optimizeCopyShapes_empty hl, Bool.or_eq_true, Bool.and_eq_true, not_inBox_iff_empty h, Option.isSome_iff_ne_none,
    Option.isSome_iff_ne_none]

/-- C90: the assertions of `copy` and `move` hold exactly if the destination has no element, or every index of the
destination is one of the source and both refs have memory. -/
theorem C90_copy (src dst : ArrayRef) (hl : List.length src.shape = dst.shape.length) (h : NonNeg dst.shape) :
    copyAsserts src dst = true ↔ (∀ i, ¬ InBox dst.shape i) ∨
      ((∀ i, InBox dst.shape i → InBox src.shape i) ∧ src.base ≠ none ∧ dst.base ≠ none) := by
  unfold copyAsserts
  rw [Bool.and_eq_true, Bool.or_eq_true, copyForEachValueAssert_iff hl h, not_inBox_iff_empty h]
  by_cases he : ∀ i, ¬ InBox dst.shape i
  · simp only [he, not_false_eq_true, implies_true, true_or, or_true, and_true, iff_true]
    unfold copyAssert
    rw [(not_inBox_iff_empty h).2 he, Bool.true_or]
  · have hp : Pos dst.shape := by
      push Not at he
      exact exists_inBox_iff.1 he
    rw [C16_assert_iff _ _ hl hp]
    tauto

/-- C90: the assertion of `equal` holds exactly if mins or extents differ, there is no element, or both refs have
memory. -/
theorem C90_equal (a b : ArrayRef) (h : NonNeg b.shape) :
    equalAsserts a b = true ↔ a.shape.map Dim.min ≠ b.shape.map Dim.min ∨
      a.shape.map Dim.extent ≠ b.shape.map Dim.extent ∨ (∀ i, ¬ InBox b.shape i) ∨ (a.base ≠ none ∧ b.base ≠ none) := by
  unfold equalAsserts Shape.mins Shape.extents
  split
  · rename_i hne
    simp only [true_iff]
    tauto
  · rename_i hne
    push Not at hne
    have hl : List.length a.shape = List.length b.shape := by
      have := congrArg List.length hne.1
      simpa using this
    rw [copyForEachValueAssert_iff hl h]
    tauto

/-- C90, `==` and `!=` of refs. -/
theorem C90_eq (a b : ArrayRef) (h : NonNeg b.shape) :
    a.eqAsserts b = true ↔ a.shape ≠ b.shape ∨ (∀ i, ¬ InBox b.shape i) ∨ (a.base ≠ none ∧ b.base ≠ none) := by
  unfold ArrayRef.eqAsserts
  split
  · rename_i hne
    simp [hne]
  · rename_i hne
    push Not at hne
    rw [copyForEachValueAssert_iff (by rw [hne]) h]
    tauto

/-- C90: `transform_index` does not check for null: it is defined exactly for refs that have memory for their
elements. -/
theorem C90_transform_index (a : ArrayRef) (h : NonNeg a.shape) (fn : Index → α) (m : Mem α) :
    (transformIndex a fn m).isSome = true ↔ Backed a := by
  unfold transformIndex
  rw [forEachIndex_eq h]
  simp only [Option.bind_eq_bind, Option.bind_some]
  cases hb : a.base with
  | some b =>
    have : Backed a := fun hn => by rw [hb] at hn; cases hn
    simp only [this, iff_true]
    exact Option.isSome_iff_exists.2 ⟨_, foldlM_some_set (fun i => b + offsetOf a.shape i) fn a.at_ _ (fun i _ => by
      unfold ArrayRef.at_; rw [hb, flatOffset_eq]; rfl) m⟩
  | none =>
    have hiff : Backed a ↔ boxList a.shape = [] := by
      rw [List.eq_nil_iff_forall_not_mem]
      exact ⟨fun hB i hi => hB hb i (mem_boxList.1 hi), fun hB _ i hi => hB i (mem_boxList.2 hi)⟩
    rw [hiff]
    cases hl : boxList a.shape with
    | nil => simp
    | cons i l =>
      simp [ArrayRef.at_, hb]

/-- C90: a crop or slice by arguments that are in range, and any transpose, of a ref that has memory for its elements has
memory for its elements. -/
theorem C90_crop (a : ArrayRef) (args : List Arg) (hl : args.length = a.shape.length)
    (hr : ∀ p ∈ List.zip a.shape args, p.2 = Arg.all ∨ Arg.isInRange p.1 p.2 = true) (h : Backed a) :
    Backed (a.crop args) := by
  intro hn i hi
  have hb : a.base = none := by
    unfold ArrayRef.crop pointerAdd at hn
    simpa using hn
  exact h hb _ (C21_inside_all a.shape args hl hr i hi)

theorem C90_transpose (a : ArrayRef) (P : List Nat) (hP : P.Perm (List.range a.shape.length))
    (hk : ∀ d ∈ a.shape, Known d) (h : Backed a) : Backed (a.transpose P) := by
  rw [(C22_transpose_ref a P hP hk).1]
  intro hn j hj
  have hlen : P.length = a.shape.length := by rw [hP.length_eq, List.length_range]
  have hP' : P.Perm (List.range P.length) := by rw [hlen]; exact hP
  have hjl : j.length = a.shape.length := by
    have := inBox_length hj
    rw [this]
    exact (transpose_shape_perm hP' (by omega)).length_eq
  obtain ⟨i, hi, rfl⟩ := C22_transpose_onto a.shape P hP' (by omega) j hjl
  exact h hn i ((C22_transpose_shape a.shape P hP' (by omega) i hi).2.1 hj)

/-- C90: `reorder` drops dims; if these have indices, the result has memory for its elements. -/
theorem C90_reorder (a : ArrayRef) (is : List Nat) (hlt : ∀ k ∈ is, k < a.shape.length) (hnd : is.Nodup)
    (hk : ∀ d ∈ a.shape, Known d) (hd : ∀ k, k < a.shape.length → k ∉ is → 0 < (a.shape.getD k default).extent)
    (h : Backed a) : Backed (a.reorder is) := by
  have hres : Shape.resolve (a.shape.reorder is) = a.shape.reorder is := by
    apply resolve_of_known
    intro d hd
    obtain ⟨k, hk', rfl⟩ := List.mem_map.1 hd
    exact hk _ (getD_mem (hlt k hk'))
  have hr : a.reorder is = ⟨a.base, a.shape.reorder is⟩ := by
    unfold ArrayRef.reorder ArrayRef.reinterpretShape ArrayRef.make
    rw [hres]
    cases a.base <;> simp
  rw [hr]
  intro hn j hj
  have hjl : j.length = is.length := by
    rw [inBox_length hj]
    exact List.length_map _
  exact h hn _ (((C22_reorder_shape a.shape is hlt hnd j hjl).2 hd).1 hj)

/-- C90, negative part: dropping a dim without indices.  A null ref to a 3×0 array whose second stride is 0 has no
element, but reordering it to its first dim passes the assertion of `reinterpret_shape` and gives a null ref with three
elements. -/
theorem C90_reorder_counterexample :
    let a : ArrayRef := ⟨none, [⟨0, 3, 1⟩, ⟨0, 0, 0⟩]⟩
    Backed a ∧ a.reinterpretShapeAssert (a.shape.reorder [0]) 0 = true ∧ a.reorder [0] = ⟨none, [⟨0, 3, 1⟩]⟩ ∧
      ¬ Backed (a.reorder [0]) ∧ (a.reorder [0]).forEachValueAssert = false := by
  refine ⟨fun _ i hi => ?_, by decide +kernel, by decide +kernel, fun h => ?_, by decide +kernel⟩
  · have := exists_inBox_iff.1 ⟨i, hi⟩ ⟨0, 0, 0⟩ (by simp)
    simp at this
  · have e : (ArrayRef.mk none [⟨0, 3, 1⟩, ⟨0, 0, 0⟩]).reorder [0] = ⟨none, [⟨0, 3, 1⟩]⟩ := by decide +kernel
    rw [e] at h
    exact h rfl [0] (by simp [InBox])

/-- C90, negative part: `empty()` is true for every null ref, `size()` looks at the shape only.  A default-constructed ref
of a static shape with three elements is empty and has size 3; `fill` fails its assertion on it, and so does a copy
to it. -/
theorem C90_empty_counterexample :
    let a : ArrayRef := ⟨none, [⟨0, 3, 1⟩]⟩
    a.empty = true ∧ a.shape.size = 3 ∧ ¬ Backed a ∧ a.forEachValueAssert = false ∧
      copyAsserts ⟨some 7, [⟨0, 3, 1⟩]⟩ a = false := by
  refine ⟨by decide +kernel, by decide +kernel, fun h => h rfl [0] (by simp [InBox]), by decide +kernel, by decide +kernel⟩

/- A null ref with no elements: everything passes. -/
example : (ArrayRef.mk none [⟨0, 3, 1⟩, ⟨5, 0, 3⟩]).forEachValueAssert = true ∧
    copyAsserts ⟨none, [⟨0, 3, 1⟩, ⟨5, 0, 3⟩]⟩ ⟨none, [⟨0, 2, 1⟩, ⟨5, 0, 2⟩]⟩ = true ∧
    equalAsserts ⟨none, [⟨0, 3, 1⟩, ⟨5, 0, 3⟩]⟩ ⟨some 4, [⟨0, 3, 1⟩, ⟨5, 0, 3⟩]⟩ = true ∧
    (ArrayRef.mk none [⟨0, 3, 1⟩, ⟨5, 0, 3⟩]).crop [.idx 1, .ivl ⟨5, 0⟩] = ⟨none, [⟨5, 0, 3⟩]⟩ := by decide +kernel
/- Non-null refs, and a copy from a null ref. -/
example : copyAsserts ⟨some 0, [⟨0, 3, 1⟩]⟩ ⟨some 9, [⟨1, 2, 1⟩]⟩ = true ∧
    copyAsserts ⟨some 0, [⟨0, 3, 1⟩]⟩ ⟨some 9, [⟨1, 3, 1⟩]⟩ = false ∧
    copyAsserts ⟨none, [⟨0, 3, 1⟩]⟩ ⟨some 9, [⟨1, 2, 1⟩]⟩ = false := by decide +kernel

end Nda
