import Verif.Lemmas.ArrayElems
import Verif.Lemmas.Counting
import Verif.Lemmas.Resolve
/-
Facts about shapes used by the array class: emptiness of optimised shapes, traces of whole arrays.
-/
namespace Nda
open Spec

/-! ### The optimiser keeps the product of the extents -/

theorem fuseLoop_prod {α : Type} (can : α → α → Bool) (f : α → α → α) (e : α → Int)
    (hf : ∀ a b, e (f a b) = e a * e b) (l : List α) :
    ((fuseLoop can f l).map e).prod = (l.map e).prod := by
  induction hn : l.length generalizing l with
  | zero => obtain rfl := List.length_eq_zero_iff.1 hn; rw [fuseLoop]
  | succ n ih =>
    match l, hn with
    | [d], _ => rw [fuseLoop]
    | d0 :: d1 :: ds, hn =>
      rw [fuseLoop]
      split
      · rw [ih _ (by simpa using hn)]
        simp [hf, mul_assoc]
      · rw [List.map_cons, List.prod_cons, ih _ (by simpa using hn)]
        simp

theorem optimizeShape_prod (s : Shape) :
    (List.map Dim.extent (optimizeShape s)).prod = (List.map Dim.extent s).prod := by
  have key : (List.map Dim.extent (dynamicOptimizeShape s)).prod = (List.map Dim.extent s).prod := by
    unfold dynamicOptimizeShape padTo
    rw [List.map_append, List.map_replicate, List.prod_append, List.prod_replicate, one_pow, mul_one,
      fuseLoop_prod _ _ _ (fun a b => rfl)]
    exact ((bubbleSort_perm dimLt s).map _).prod_eq
  unfold optimizeShape
  split
  · rfl
  · exact key

theorem optimizeShape_empty (s : Shape) : (optimizeShape s).empty = s.empty := by
  unfold Shape.empty
  rw [size_eq, size_eq, optimizeShape_prod]

theorem optimizeCopyShapes_prod {src dst : Shape} (hl : List.length src = List.length dst) :
    (List.map Dim.extent (optimizeCopyShapes src dst).2).prod = (List.map Dim.extent dst).prod := by
  have key : (List.map Dim.extent (dynamicOptimizeCopyShapes src dst).2).prod =
      (List.map Dim.extent dst).prod := by
    unfold dynamicOptimizeCopyShapes padTo
    simp only [List.map_append, List.map_replicate, List.prod_append, List.prod_replicate, one_pow,
      mul_one, List.map_map]
    rw [fuseLoop_prod _ _ _ (fun a b => rfl), ((bubbleSort_perm copyDimsLt _).map _).prod_eq,
      ← List.map_map, zipWith_dst hl]
  unfold optimizeCopyShapes
  split
  · rfl
  · exact key

theorem optimizeCopyShapes_empty {src dst : Shape} (hl : List.length src = List.length dst) :
    (optimizeCopyShapes src dst).2.empty = dst.empty := by
  unfold Shape.empty
  rw [size_eq, size_eq, optimizeCopyShapes_prod hl]

/-! ### Elements of an array in its buffer -/

/-- How many indices of `s` denote element `o` of the buffer allocated for `s`. -/
def cnt (s : Shape) (o : Int) : Nat := ((boxList s).map fun i => 0 - s.flatMin + offsetOf s i).count o

theorem cnt_pos_iff (s : Shape) (o : Int) :
    0 < cnt s o ↔ ∃ i, InBox s i ∧ 0 - s.flatMin + offsetOf s i = o := by
  unfold cnt
  rw [List.count_pos_iff, List.mem_map]
  simp only [mem_boxList]

theorem elem_range {s : Shape} {i : Index} (h : InBox s i) :
    0 ≤ 0 - s.flatMin + offsetOf s i ∧ 0 - s.flatMin + offsetOf s i < s.flatExtent := by
  have := offsetOf_bounds h
  rw [flatExtent_eq]
  omega

theorem cnt_le_one {s : Shape} (h : Injective s) (o : Int) : cnt s o ≤ 1 := by
  refine List.nodup_iff_count_le_one.1 ?_ o
  apply (boxList_nodup s).map_on
  intro i hi j hj e
  exact h i j (mem_boxList.1 hi) (mem_boxList.1 hj) (by omega)

theorem flatExtent_pos {s : Shape} (h : Pos s) : 0 < s.flatExtent := by
  have := elem_range (inBox_mins h)
  omega

theorem not_pos_of_flatExtent {s : Shape} (h : s.flatExtent = 0) : ¬ Pos s := fun hp => by
  have := flatExtent_pos hp; omega

theorem trace_perm {s : Shape} (h : NonNeg s) :
    (s.forEachValue (some (0 - s.flatMin))).Perm
      ((boxList s).map fun i => 0 - s.flatMin + offsetOf s i) := forEachValue_perm s h _

theorem trace_count {s : Shape} (h : NonNeg s) (o : Int) :
    (s.forEachValue (some (0 - s.flatMin))).count o = cnt s o := (trace_perm h).count_eq o

theorem trace_mem {s : Shape} (h : NonNeg s) {o : Int} :
    o ∈ s.forEachValue (some (0 - s.flatMin)) ↔ ∃ i, InBox s i ∧ 0 - s.flatMin + offsetOf s i = o := by
  rw [(trace_perm h).mem_iff, List.mem_map]
  simp only [mem_boxList]

theorem flatMin_of_nonneg_strides {s : Shape} (h : ∀ d ∈ s, 0 ≤ d.stride) : s.flatMin = 0 := by
  induction s with
  | nil => rfl
  | cons d s ih =>
    rw [flatMin_cons, ih (fun x hx => h x (by simp [hx])), min_eq_left (h d (by simp))]
    simp

/-! ### Resolving -/

theorem forall₂_mem_right {α β : Type} {R : α → β → Prop} {a : List α} {b : List β}
    (h : List.Forall₂ R a b) : ∀ y ∈ b, ∃ x ∈ a, R x y := by
  induction h with
  | nil => simp
  | cons h1 _ ih =>
    intro y hy
    rcases List.mem_cons.1 hy with rfl | hy
    · exact ⟨_, by simp, h1⟩
    · obtain ⟨x, hx, hr⟩ := ih y hy
      exact ⟨x, by simp [hx], hr⟩

theorem forall₂_mem_left {α β : Type} {R : α → β → Prop} {a : List α} {b : List β}
    (h : List.Forall₂ R a b) : ∀ x ∈ a, ∃ y ∈ b, R x y := by
  induction h with
  | nil => simp
  | cons h1 _ ih =>
    intro y hy
    rcases List.mem_cons.1 hy with rfl | hy
    · exact ⟨_, by simp, h1⟩
    · obtain ⟨x, hx, hr⟩ := ih y hy
      exact ⟨x, by simp [hx], hr⟩

theorem resolve_nonNeg {s : Shape} : NonNeg s.resolve ↔ NonNeg s := by
  constructor
  · intro h d hd
    obtain ⟨y, hy, hr⟩ := forall₂_mem_left (resolve_refines s) d hd
    rw [← hr.2.1]; exact h y hy
  · intro h d hd
    obtain ⟨y, hy, hr⟩ := forall₂_mem_right (resolve_refines s) d hd
    rw [hr.2.1]; exact h y hy

theorem resolve_pos {s : Shape} : Pos s.resolve ↔ Pos s := by
  constructor
  · intro h d hd
    obtain ⟨y, hy, hr⟩ := forall₂_mem_left (resolve_refines s) d hd
    rw [← hr.2.1]; exact h y hy
  · intro h d hd
    obtain ⟨y, hy, hr⟩ := forall₂_mem_right (resolve_refines s) d hd
    rw [hr.2.1]; exact h y hy

theorem resolve_strides_nonneg {s : Shape} (h : ∀ d ∈ s, Known d → 0 ≤ d.stride) :
    ∀ d ∈ s.resolve, 0 ≤ d.stride := by
  have := resolveLoop_invariant
    (fun done todo => (∀ d ∈ done, 0 ≤ d.stride) ∧ ∀ d ∈ todo, Known d → 0 ≤ d.stride) (by
      intro done d ds hI
      refine ⟨?_, fun x hx => hI.2 x (by simp [hx])⟩
      intro x hx
      rcases List.mem_append.1 hx with hx | hx
      · exact hI.1 x hx
      · rw [List.mem_singleton] at hx
        subst hx
        by_cases hk : Known d
        · rw [resolveDim_known _ hk]; exact hI.2 d (by simp) hk
        · rw [resolveDim_unknown _ hk]
          have := findStride_ge_one d.extent (done ++ d :: ds)
          simp only; omega) s [] ⟨by simp, h⟩
  exact this.1

end Nda
