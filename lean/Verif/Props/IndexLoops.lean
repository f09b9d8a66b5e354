import Verif.Lemmas.Unshuffle
/-
C11 (iterating a dim), C12 (for_each_index), C13 (for_each_index<LoopOrder...>).
-/
namespace Nda
open Spec

/-! ### C11 -/

/-- C11: the range-for over a dim with non-negative extent terminates and yields exactly the
indices in `[min, min + extent)`, in strictly increasing (hence duplicate free) order. -/
theorem C11_dim_iteration (d : Dim) (h : 0 ≤ d.extent) :
    ∃ l, d.iterate = some l ∧ (∀ i, i ∈ l ↔ d.min ≤ i ∧ i < d.min + d.extent) ∧
      l.Pairwise (· < ·) :=
  ⟨_, Dim.iterate_eq h, fun _ => mem_ints, ints_pairwise _ _⟩

/-- C11: the same for an interval. -/
theorem C11_interval_iteration (v : Interval) (h : 0 ≤ v.extent) :
    ∃ l, v.iterate = some l ∧ (∀ i, i ∈ l ↔ v.min ≤ i ∧ i < v.min + v.extent) ∧
      l.Pairwise (· < ·) := by
  have : v.iterate = Dim.iterate ⟨v.min, v.extent, 0⟩ := rfl
  rw [this]
  exact C11_dim_iteration ⟨v.min, v.extent, 0⟩ h

/-- C11, negative part: with a negative extent the loop never reaches its end. -/
theorem C11_negative_extent_diverges (d : Dim) (h : d.extent < 0) : d.iterate = none :=
  Dim.iterate_none h

example : (Dim.mk (-2) 4 7).iterate = some [-2, -1, 0, 1] := Dim.iterate_eq (by decide)
example : (range 5 3).iterate = none :=
  Dim.iterate_none (d := ⟨5, 3 - 5, 0⟩) (by decide)

/-! ### C12 -/

/-- C12: `for_each_index` calls its function exactly once for each in-range index, first
coordinate fastest. -/
theorem C12_for_each_index (s : Shape) (h : NonNeg s) :
    ∃ tr, s.forEachIndex = some tr ∧ Enumerates s tr ∧ tr.Pairwise ColexLt :=
  ⟨_, forEachIndex_eq h, boxList_enumerates s, boxList_pairwise s⟩

/-- C12: the three facts determine the call sequence completely. -/
theorem C12_unique {s : Shape} {l l' : List Index} (hl : Enumerates s l)
    (hl' : Enumerates s l') (h : l.Pairwise ColexLt) (h' : l'.Pairwise ColexLt) : l = l' := by
  refine List.Perm.eq_of_pairwise ?_ h h' (hl.perm hl')
  rintro a b - - ⟨_, k, x, y, hx, hy, hxy, hk⟩ ⟨_, k', x', y', hx', hy', hxy', hk'⟩
  exfalso
  rcases lt_trichotomy k k' with hlt | rfl | hlt
  · have := hk k' hlt; rw [hx', hy'] at this; simp at this; omega
  · rw [hx] at hy'; rw [hy] at hx'; simp at hx' hy'; omega
  · have := hk' k hlt; rw [hx, hy] at this; simp at this; omega

/-- Rank 3 with an empty and rank 3 with a non-empty box (the rank-3 code path peels two dims,
then one). -/
example : Shape.forEachIndex [⟨0, 2, 1⟩, ⟨5, 1, 2⟩, ⟨-1, 2, 2⟩] =
    some [[0, 5, -1], [1, 5, -1], [0, 5, 0], [1, 5, 0]] :=
  forEachIndex_eq (by simp [NonNeg])
example : Shape.forEachIndex [⟨0, 2, 1⟩, ⟨5, 0, 2⟩, ⟨-1, 2, 2⟩] = some [] :=
  forEachIndex_eq (by simp [NonNeg])
/-- A scalar shape has exactly one (empty) index. -/
example : Shape.forEachIndex [] = some [[]] := forEachIndex_eq (by simp [NonNeg])

/-! ### C13 -/

/-- C13: with a permutation as loop order, `for_each_index<LoopOrder...>` calls the function
exactly once per in-range index, with the coordinates in the order of the shape's dims, and the
coordinates taken in loop order increase colexicographically: dim `LoopOrder[0]` is fastest. -/
theorem C13_loop_order (s : Shape) (order : List Nat) (h : NonNeg s)
    (hp : order.Perm (List.range s.length)) :
    ∃ tr, s.forEachIndexOrdered order = some tr ∧ Enumerates s tr ∧
      tr.Pairwise fun a b =>
        ColexLt (order.map fun k => a.getD k 0) (order.map fun k => b.getD k 0) := by
  have hlt : ∀ k ∈ order, k < s.length := fun k hk => List.mem_range.1 (hp.mem_iff.1 hk)
  have hnd : order.Nodup := hp.nodup_iff.2 List.nodup_range
  obtain ⟨tr, h1, h2, h3⟩ := forEachIndexOrdered_enumerates h hlt hnd
  refine ⟨tr, h1, ?_, ?_⟩
  · rwa [map_usedDims_of_perm hp] at h3
  · rw [h2, List.pairwise_map]
    refine (boxList_pairwise (Shape.reorder order s)).imp_of_mem ?_
    intro a b ha hb hab
    rw [mem_boxList] at ha hb
    rw [map_getD_unshuffle hp (by simpa [Shape.reorder] using inBox_length ha),
      map_getD_unshuffle hp (by simpa [Shape.reorder] using inBox_length hb)]
    exact hab

/-- C13 for a loop order that mentions only some dims (each at most once): the function is
called once for each combination of coordinates of the mentioned dims, which are passed in
increasing order of dim. -/
theorem C13_subset_of_dims (s : Shape) (order : List Nat) (h : NonNeg s)
    (hlt : ∀ k ∈ order, k < s.length) (hnd : order.Nodup) :
    ∃ tr, s.forEachIndexOrdered order = some tr ∧
      Enumerates (((List.range s.length).filter (· ∈ order)).map fun k => s.getD k default) tr := by
  obtain ⟨tr, h1, _, h3⟩ := forEachIndexOrdered_enumerates h hlt hnd
  exact ⟨tr, h1, h3⟩

example : [2, 0, 1].Perm (List.range (List.length [(⟨0, 2, 1⟩ : Dim), ⟨5, 1, 2⟩, ⟨-1, 2, 2⟩])) := by
  decide
example : unshuffle [2, 0, 1] ["z", "x", "y"] = ["x", "y", "z"] := by decide

end Nda
