import Verif.Lemmas.Flat
import Mathlib.Data.List.NodupEquivFin
import Mathlib.Data.List.GetD

namespace Nda
open Spec

theorem indexOf_of_mem {i : Nat} {is : List Nat} (h : i ∈ is) : indexOf i is = is.idxOf i := by
  induction is with
  | nil => simp at h
  | cons a as ih =>
    rw [indexOf, List.idxOf_cons]
    by_cases hia : i = a
    · simp [hia]
    · have h' : i ∈ as := by simpa [hia] using h
      have : (a == i) = false := by simp; omega
      rw [if_neg hia, this, ih h']
      simp; omega

theorem indexOf_of_not_mem {i : Nat} {is : List Nat} (h : i ∉ is) :
    is.length ≤ indexOf i is := by
  induction is with
  | nil => simp
  | cons a as ih =>
    simp only [List.mem_cons, not_or] at h
    rw [indexOf, if_neg h.1]
    have := ih h.2
    simp; omega

theorem variadicMax_cons (a : Int) (l : List Int) :
    variadicMax (a :: l) = max a (variadicMax l) := by rw [variadicMax, imax_eq]

theorem le_variadicMax {a : Int} {l : List Int} (h : a ∈ l) : a ≤ variadicMax l := by
  induction l with
  | nil => simp at h
  | cons b l ih =>
    rw [variadicMax_cons]
    rcases List.mem_cons.1 h with rfl | h
    · exact le_max_left _ _
    · exact le_trans (ih h) (le_max_right _ _)

theorem variadicMax_lt {n : Int} {l : List Int} (hn : 0 ≤ n) (h : ∀ a ∈ l, a < n) :
    variadicMax l < n := by
  induction l with
  | nil => unfold variadicMax unresolved; omega
  | cons b l ih =>
    rw [variadicMax_cons]
    have := ih (fun a ha => h a (by simp [ha]))
    have := h b (by simp)
    omega

/-- The dims that occur in `order`, in increasing order. -/
def usedDims (order : List Nat) (n : Nat) : List Nat :=
  (List.range n).filter fun j => decide (j ∈ order)

theorem flatMap_getOrEmpty {α : Type} [Inhabited α] {order : List Nat} {t : List α}
    (hlen : t.length = order.length) (l : List Nat) :
    (l.flatMap fun j => getOrEmpty (indexOf j order) t) =
      (l.filter fun j => decide (j ∈ order)).map fun j => t.getD (order.idxOf j) default := by
  induction l with
  | nil => rfl
  | cons a l ih =>
    rw [List.flatMap_cons, ih]
    by_cases ha : a ∈ order
    · have hlt : order.idxOf a < t.length := by rw [hlen]; exact List.idxOf_lt_length_iff.2 ha
      rw [indexOf_of_mem ha, List.filter_cons_of_pos (by simpa using ha)]
      simp only [getOrEmpty, hlt, dif_pos, List.map_cons, List.singleton_append]
      congr 1
      rw [List.getD_eq_getElem _ _ hlt]
    · have := indexOf_of_not_mem ha
      rw [List.filter_cons_of_neg (by simpa using ha)]
      simp only [getOrEmpty]
      rw [dif_neg (by omega)]
      rfl

theorem unshuffle_eq {α : Type} [Inhabited α] {order : List Nat} {n : Nat} {t : List α}
    (hlt : ∀ k ∈ order, k < n) (hlen : t.length = order.length) :
    unshuffle order t = (usedDims order n).map fun j => t.getD (order.idxOf j) default := by
  unfold unshuffle
  rw [flatMap_getOrEmpty hlen]
  congr 1
  unfold usedDims
  set m := (variadicMax (order.map Int.ofNat) + 1).toNat with hm
  have hmn : m ≤ n := by
    have : variadicMax (order.map Int.ofNat) < n := by
      apply variadicMax_lt (by omega)
      intro a ha
      simp only [List.mem_map] at ha
      obtain ⟨k, hk, rfl⟩ := ha
      have := hlt k hk
      simp; omega
    omega
  have hmem : ∀ k ∈ order, k < m := by
    intro k hk
    have : (k : Int) ≤ variadicMax (order.map Int.ofNat) :=
      le_variadicMax (List.mem_map.2 ⟨k, hk, rfl⟩)
    omega
  obtain ⟨r, rfl⟩ := Nat.exists_eq_add_of_le hmn
  rw [List.range_add, List.filter_append]
  have : List.filter (fun j => decide (j ∈ order)) (List.map (fun x => m + x) (List.range r)) = [] := by
    rw [List.filter_eq_nil_iff]
    intro a ha
    simp only [List.mem_map, List.mem_range] at ha
    obtain ⟨x, _, rfl⟩ := ha
    simp only [decide_eq_true_eq]
    intro hc
    have := hmem _ hc
    omega
  rw [this, List.append_nil]

theorem usedDims_perm {order : List Nat} {n : Nat} (hlt : ∀ k ∈ order, k < n)
    (hnd : order.Nodup) : order.Perm (usedDims order n) := by
  unfold usedDims
  rw [List.perm_ext_iff_of_nodup hnd ((List.nodup_range).filter _)]
  intro a
  simp only [List.mem_filter, List.mem_range, decide_eq_true_eq]
  exact ⟨fun h => ⟨hlt a h, h⟩, fun h => h.2⟩

theorem usedDims_of_perm {order : List Nat} {n : Nat} (h : order.Perm (List.range n)) :
    usedDims order n = List.range n := by
  unfold usedDims
  rw [List.filter_eq_self]
  intro a ha
  simpa using h.mem_iff.2 ha

theorem inBox_iff_forall {s : List Dim} {i : List Int} :
    InBox s i ↔ i.length = s.length ∧ ∀ k, k < s.length →
      (s.getD k default).min ≤ i.getD k 0 ∧
      i.getD k 0 < (s.getD k default).min + (s.getD k default).extent := by
  induction s generalizing i with
  | nil => rw [inBox_nil]; simp
  | cons d ds ih =>
    cases i with
    | nil => simp [InBox]
    | cons i is =>
      rw [inBox_cons, ih]
      constructor
      · rintro ⟨h0, hl, h⟩
        refine ⟨by simp [hl], ?_⟩
        intro k hk
        cases k with
        | zero => simpa using h0
        | succ k => simpa using h k (by simpa using hk)
      · rintro ⟨hl, h⟩
        refine ⟨by simpa using h 0 (by simp), by simpa using hl, ?_⟩
        intro k hk
        simpa using h (k + 1) (by simpa using hk)

theorem inBox_map_iff {α : Type} (l : List α) (f : α → Dim) (g : α → Int) :
    InBox (l.map f) (l.map g) ↔ ∀ a ∈ l, (f a).min ≤ g a ∧ g a < (f a).min + (f a).extent := by
  induction l with
  | nil => simp [InBox]
  | cons a l ih => simp [inBox_cons, ih]

theorem map_getD_idxOf {α : Type} [Inhabited α] {order : List Nat} (hnd : order.Nodup)
    {t : List α} (hlen : t.length = order.length) :
    (order.map fun k => t.getD (order.idxOf k) default) = t := by
  apply List.ext_getElem
  · simp [hlen]
  · intro i h1 h2
    simp only [List.getElem_map]
    rw [hnd.idxOf_getElem, List.getD_eq_getElem _ _ h2]

theorem reorder_nonNeg {order : List Nat} {s : Shape} (h : NonNeg s)
    (hlt : ∀ k ∈ order, k < s.length) : NonNeg (Shape.reorder order s) := by
  intro d hd
  simp only [Shape.reorder, List.mem_map] at hd
  obtain ⟨k, hk, rfl⟩ := hd
  have := hlt k hk
  rw [List.getD_eq_getElem _ _ this]
  exact h _ (List.getElem_mem _)

/-- The trace of an ordered loop enumerates the box of the used dims. -/
theorem forEachIndexOrdered_enumerates {order : List Nat} {s : Shape} (h : NonNeg s)
    (hlt : ∀ k ∈ order, k < s.length) (hnd : order.Nodup) :
    ∃ tr, Shape.forEachIndexOrdered order s = some tr ∧
      tr = (boxList (Shape.reorder order s)).map (unshuffle order) ∧
      Enumerates ((usedDims order s.length).map fun k => s.getD k default) tr := by
  refine ⟨_, ?_, rfl, ?_, ?_⟩
  · unfold Shape.forEachIndexOrdered
    rw [forEachIndex_eq (reorder_nonNeg h hlt)]; rfl
  · apply List.Nodup.map_on _ (boxList_nodup _)
    intro x hx y hy hxy
    rw [mem_boxList] at hx hy
    have lx : x.length = order.length := by simpa [Shape.reorder] using inBox_length hx
    have ly : y.length = order.length := by simpa [Shape.reorder] using inBox_length hy
    rw [unshuffle_eq hlt lx, unshuffle_eq hlt ly] at hxy
    rw [← map_getD_idxOf hnd lx, ← map_getD_idxOf hnd ly]
    apply List.map_congr_left
    intro k hk
    exact List.map_inj_left.1 hxy k ((usedDims_perm hlt hnd).mem_iff.1 hk)
  · intro i
    simp only [List.mem_map, mem_boxList]
    constructor
    · rintro ⟨t, ht, rfl⟩
      have lt : t.length = order.length := by simpa [Shape.reorder] using inBox_length ht
      rw [unshuffle_eq hlt lt, inBox_map_iff]
      rw [← map_getD_idxOf hnd lt, Shape.reorder, inBox_map_iff] at ht
      intro k hk
      exact ht k ((usedDims_perm hlt hnd).mem_iff.2 hk)
    · intro hi
      have hud : (usedDims order s.length).Nodup := (List.nodup_range).filter _
      have li : i.length = (usedDims order s.length).length := by simpa using inBox_length hi
      rw [← map_getD_idxOf hud li, inBox_map_iff] at hi
      refine ⟨order.map fun k => i.getD ((usedDims order s.length).idxOf k) default, ?_, ?_⟩
      · rw [Shape.reorder, inBox_map_iff]
        intro k hk
        exact hi k ((usedDims_perm hlt hnd).mem_iff.1 hk)
      · rw [unshuffle_eq hlt (by simp)]
        conv_rhs => rw [← map_getD_idxOf hud li]
        apply List.map_congr_left
        intro k hk
        have hk' := (usedDims_perm hlt hnd).mem_iff.2 hk
        have : order.idxOf k < order.length := List.idxOf_lt_length_iff.2 hk'
        rw [List.getD_eq_getElem _ _ (by simpa using this), List.getElem_map, List.getElem_idxOf]

theorem map_usedDims_of_perm {order : List Nat} {s : List Dim}
    (h : order.Perm (List.range s.length)) :
    ((usedDims order s.length).map fun k => s.getD k default) = s := by
  rw [usedDims_of_perm h]
  apply List.ext_getElem
  · simp
  · intro i h1 h2
    simp only [List.getElem_map, List.getElem_range]
    rw [List.getD_eq_getElem _ _ h2]

/-- Shuffling back: the listed coordinates of an unshuffled tuple are the tuple. -/
theorem map_getD_unshuffle {order : List Nat} {n : Nat} (h : order.Perm (List.range n))
    {t : List Int} (hlen : t.length = order.length) :
    (order.map fun k => (unshuffle order t).getD k 0) = t := by
  have hnd : order.Nodup := h.nodup_iff.2 List.nodup_range
  have hlt : ∀ k ∈ order, k < n := fun k hk => List.mem_range.1 (h.mem_iff.1 hk)
  rw [unshuffle_eq hlt hlen, usedDims_of_perm h]
  conv_rhs => rw [← map_getD_idxOf hnd hlen]
  apply List.map_congr_left
  intro k hk
  rw [List.getD_eq_getElem _ _ (by simpa using hlt k hk)]
  simp

end Nda
