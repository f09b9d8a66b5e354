import Verif.Lemmas.Unshuffle
import Verif.Lemmas.Resolve
import Verif.Spec.Views
import Mathlib.Algebra.BigOperators.Group.List.Basic
import Mathlib.Tactic.Ring
import Mathlib.Tactic.Linarith

namespace Nda
open Spec

/-! ### Crops and slices -/

theorem crop_nil : Shape.crop [] [] = [] := rfl

theorem crop_cons (d : Dim) (s : Shape) (a : Arg) (as : List Arg) :
    Shape.crop (d :: s) (a :: as) =
      Arg.skipSlices (a.rangeWithStride d) a ++ Shape.crop s as := by
  simp [Shape.crop]

theorem crop_length {s : Shape} {args : List Arg} (h : args.length = s.length) :
    List.length (s.crop args) = keptRank args := by
  induction s generalizing args with
  | nil => rw [List.length_eq_zero_iff.1 h]; rfl
  | cons d s ih =>
    cases args with
    | nil => simp at h
    | cons a as =>
      rw [crop_cons, List.length_append, ih (by simpa using h)]
      cases a <;> simp [Arg.skipSlices, keptRank] <;> omega

theorem crop_offset {s : Shape} {args : List Arg} (h : args.length = s.length) (j : Index)
    (hj : j.length = keptRank args) :
    offsetOf s (Shape.minsOfIntervals args s) + offsetOf (s.crop args) j =
      offsetOf s (fullIndex args j) := by
  induction s generalizing args j with
  | nil => rw [List.length_eq_zero_iff.1 h]; simp [crop_nil, offsetOf]
  | cons d s ih =>
    cases args with
    | nil => simp at h
    | cons a as =>
      have hl : as.length = s.length := by simpa using h
      rw [crop_cons]
      cases a with
      | idx x =>
        have := ih hl j (by simpa [keptRank] using hj)
        simp only [Shape.minsOfIntervals] at this
        simp only [Shape.minsOfIntervals, List.zipWith_cons_cons, Arg.minOfRange, Arg.skipSlices,
          List.nil_append, fullIndex, offsetOf, ← this]
        ring
      | _ =>
        cases j with
        | nil => simp [keptRank] at hj
        | cons y j =>
          have := ih hl j (by simpa [keptRank] using hj)
          simp only [Shape.minsOfIntervals] at this
          simp only [Shape.minsOfIntervals, List.zipWith_cons_cons, Arg.minOfRange, Arg.skipSlices,
            Arg.rangeWithStride, List.cons_append, List.nil_append, fullIndex, offsetOf, ← this]
          ring

theorem dim_isInRangeI_iff (d : Dim) (v : Interval) : d.isInRangeI v = true ↔
    d.min ≤ v.min ∧ v.min + v.extent ≤ d.min + d.extent := by
  unfold Dim.isInRangeI
  rw [Bool.and_eq_true, decide_eq_true_eq, decide_eq_true_eq]
  unfold Interval.max Dim.max
  omega

theorem crop_inBox {s : Shape} {args : List Arg} (h : args.length = s.length)
    (hr : ∀ p ∈ List.zip s args, p.2 = Arg.all ∨ Arg.isInRange p.1 p.2 = true)
    (j : Index) (hj : InBox (s.crop args) j) : InBox s (fullIndex args j) := by
  induction s generalizing args j with
  | nil =>
    rw [List.length_eq_zero_iff.1 h] at hj ⊢
    rw [crop_nil, inBox_nil] at hj; subst hj; trivial
  | cons d s ih =>
    cases args with
    | nil => simp at h
    | cons a as =>
      have hl : as.length = s.length := by simpa using h
      have hr' : ∀ p ∈ List.zip s as, p.2 = Arg.all ∨ Arg.isInRange p.1 p.2 = true :=
        fun p hp => hr p (by simp [hp])
      have h0 := hr (d, a) (by simp)
      rw [crop_cons] at hj
      cases a with
      | idx x =>
        refine ⟨?_, ih hl hr' j hj⟩
        rcases h0 with h0 | h0
        · cases h0
        · exact (Dim.isInRange_iff d x).1 h0
      | ivl v =>
        obtain ⟨y, j', rfl, hy, hj'⟩ := inBox_cons_iff.1 hj
        refine ⟨?_, ih hl hr' j' hj'⟩
        rcases h0 with h0 | h0
        · cases h0
        · have := (dim_isInRangeI_iff d v).1 h0
          simp only [Arg.rangeWithStride] at hy; omega
      | dm v =>
        obtain ⟨y, j', rfl, hy, hj'⟩ := inBox_cons_iff.1 hj
        refine ⟨?_, ih hl hr' j' hj'⟩
        rcases h0 with h0 | h0
        · cases h0
        · have := (dim_isInRangeI_iff d v.toInterval).1 h0
          simp only [Dim.toInterval] at this
          simp only [Arg.rangeWithStride] at hy; omega
      | all =>
        obtain ⟨y, j', rfl, hy, hj'⟩ := inBox_cons_iff.1 hj
        exact ⟨hy, ih hl hr' j' hj'⟩

/-! ### Permuted dims -/

theorem offsetOf_map (l : List Nat) (f : Nat → Dim) (g : Nat → Int) :
    offsetOf (l.map f) (l.map g) = (l.map fun k => (g k - (f k).min) * (f k).stride).sum := by
  induction l with
  | nil => rfl
  | cons a l ih => simp [offsetOf, ih]

theorem map_range_getD {α : Type} (l : List α) (x : α) :
    (List.range l.length).map (fun k => l.getD k x) = l := by
  apply List.ext_getElem
  · simp
  · intro i h1 h2
    simp only [List.getElem_map, List.getElem_range]
    exact List.getD_eq_getElem _ _ h2

theorem map_range'_getD {α : Type} (l : List α) (x : α) (n : Nat) (_h : n ≤ l.length) :
    (List.range' n (l.length - n)).map (fun k => l.getD k x) = l.drop n := by
  apply List.ext_getElem
  · simp
  · intro i h1 h2
    simp only [List.getElem_map, List.getElem_range', List.getElem_drop, Nat.one_mul]
    exact List.getD_eq_getElem _ _ (by simp at h2; omega)

/-- The full permutation behind a (possibly partial) transpose. -/
theorem transpose_perm {P : List Nat} {n : Nat} (hP : P.Perm (List.range P.length))
    (h : P.length ≤ n) : (P ++ List.range' P.length (n - P.length)).Perm (List.range n) := by
  have : List.range n = List.range P.length ++ List.range' P.length (n - P.length) := by
    have h1 := List.range'_append_1 (s := 0) (m := P.length) (n := n - P.length)
    rw [Nat.zero_add, Nat.add_sub_cancel' h] at h1
    rw [List.range_eq_range', List.range_eq_range', h1]
  rw [this]
  exact List.Perm.append_right _ hP

theorem transpose_eq_map {P : List Nat} {s : Shape} (h : P.length ≤ s.length) :
    s.transpose P =
      (P ++ List.range' P.length (s.length - P.length)).map fun k => s.getD k default := by
  unfold Shape.transpose Shape.reorder
  rw [List.map_append, map_range'_getD _ _ _ h]

theorem index_eq_map {P : List Nat} {n : Nat} {i : Index} (hi : i.length = n) (h : P.length ≤ n) :
    P.map (fun k => i.getD k 0) ++ i.drop P.length =
      (P ++ List.range' P.length (n - P.length)).map fun k => i.getD k 0 := by
  subst hi
  rw [List.map_append, map_range'_getD _ _ _ h]

theorem perm_offset {Q : List Nat} {s : List Dim} {i : Index} (hQ : Q.Perm (List.range s.length))
    (hi : i.length = s.length) :
    offsetOf (Q.map fun k => s.getD k default) (Q.map fun k => i.getD k 0) = offsetOf s i := by
  rw [offsetOf_map, (hQ.map _).sum_eq, ← offsetOf_map, map_range_getD, ← hi, map_range_getD]

theorem perm_inBox {Q : List Nat} {s : List Dim} {i : Index} (hQ : Q.Perm (List.range s.length))
    (hi : i.length = s.length) :
    InBox (Q.map fun k => s.getD k default) (Q.map fun k => i.getD k 0) ↔ InBox s i := by
  conv_rhs => rw [← map_range_getD s default, ← map_range_getD i 0, hi]
  rw [inBox_map_iff, inBox_map_iff]
  constructor
  · intro h a ha; exact h a (hQ.mem_iff.2 ha)
  · intro h a ha; exact h a (hQ.mem_iff.1 ha)

theorem perm_flat {s t : Shape} (h : List.Perm s t) :
    s.flatMin = t.flatMin ∧ s.flatMax = t.flatMax := by
  rw [flatMin_eq, flatMin_eq, flatMax_eq, flatMax_eq]
  exact ⟨(h.map _).sum_eq, (h.map _).sum_eq⟩

theorem transpose_shape_perm {P : List Nat} {s : Shape} (hP : P.Perm (List.range P.length))
    (h : P.length ≤ s.length) : List.Perm (s.transpose P) s := by
  rw [transpose_eq_map h]
  conv_rhs => rw [← map_range_getD s default]
  exact (transpose_perm hP h).map _

theorem getD_mem {s : Shape} {k : Nat} (h : k < s.length) : s.getD k default ∈ s := by
  rw [List.getD_eq_getElem _ _ h]; exact List.getElem_mem h

theorem sum_filter_zero (l : List Nat) (f : Nat → Int) (p : Nat → Bool)
    (h : ∀ k ∈ l, p k = false → f k = 0) :
    ((l.filter p).map f).sum = (l.map f).sum := by
  induction l with
  | nil => rfl
  | cons a l ih =>
    have := ih (fun k hk => h k (by simp [hk]))
    rw [List.filter_cons]
    split
    · simp [this]
    · rename_i hp
      rw [this, List.map_cons, List.sum_cons, h a (by simp) (by simpa using hp), zero_add]

theorem fixDropped_length (s : List Dim) (is : List Nat) (j : Index) :
    (fixDropped s is j).length = s.length := by simp [fixDropped]

theorem fixDropped_getD {s : List Dim} {is : List Nat} {j : Index} {k : Nat} (hk : k < s.length) :
    (fixDropped s is j).getD k 0 =
      if k ∈ is then j.getD (is.idxOf k) 0 else (s.getD k default).min := by
  rw [List.getD_eq_getElem _ _ (by simpa [fixDropped] using hk)]
  simp [fixDropped]

theorem reorder_index {s : Shape} {is : List Nat} {j : Index} (hlt : ∀ k ∈ is, k < s.length)
    (hnd : is.Nodup) (hj : j.length = is.length) :
    is.map (fun k => (fixDropped s is j).getD k 0) = j := by
  conv_rhs => rw [← map_getD_idxOf hnd hj]
  apply List.map_congr_left
  intro k hk
  rw [fixDropped_getD (hlt k hk), if_pos hk]
  rfl

theorem reorder_offset {s : Shape} {is : List Nat} {j : Index} (hlt : ∀ k ∈ is, k < s.length)
    (hnd : is.Nodup) (hj : j.length = is.length) :
    offsetOf (s.reorder is) j = offsetOf s (fixDropped s is j) := by
  conv_lhs => rw [← reorder_index hlt hnd hj]
  have e1 := map_range_getD s default
  have e2 := map_range_getD (fixDropped s is j) 0
  rw [fixDropped_length] at e2
  generalize hF : fixDropped s is j = F at *
  conv_rhs => rw [← e1, ← e2]
  subst hF
  unfold Shape.reorder
  rw [offsetOf_map, offsetOf_map, ((usedDims_perm hlt hnd).map _).sum_eq]
  unfold usedDims
  apply sum_filter_zero
  intro k hk hp
  have hk' := List.mem_range.1 hk
  rw [fixDropped_getD hk', if_neg (by simpa using hp)]
  ring

theorem reorder_inBox {s : Shape} {is : List Nat} {j : Index} (hlt : ∀ k ∈ is, k < s.length)
    (hnd : is.Nodup) (hj : j.length = is.length)
    (hpos : ∀ k, k < s.length → k ∉ is → 0 < (s.getD k default).extent) :
    InBox (s.reorder is) j ↔ InBox s (fixDropped s is j) := by
  conv_lhs => rw [← reorder_index hlt hnd hj]
  have e1 := map_range_getD s default
  have e2 := map_range_getD (fixDropped s is j) 0
  rw [fixDropped_length] at e2
  generalize hF : fixDropped s is j = F at *
  conv_rhs => rw [← e1, ← e2]
  subst hF
  unfold Shape.reorder
  rw [inBox_map_iff, inBox_map_iff]
  constructor
  · intro h k hk
    have hk' := List.mem_range.1 hk
    by_cases hm : k ∈ is
    · exact h k hm
    · rw [fixDropped_getD hk', if_neg hm]
      have := hpos k hk' hm
      omega
  · intro h k hk; exact h k (List.mem_range.2 (hlt k hk))

end Nda
