import Verif.Lemmas.Loops
import Mathlib.Algebra.BigOperators.Fin

namespace Nda
open Spec

theorem offsetOf_ofFn : ∀ {n : Nat} (dims : Fin n → Dim) (idx : Fin n → Int),
    offsetOf (List.ofFn dims) (List.ofFn idx) =
      ∑ k, (idx k - (dims k).min) * (dims k).stride
  | 0, _, _ => by simp [offsetOf]
  | n + 1, dims, idx => by
    rw [List.ofFn_succ, List.ofFn_succ, offsetOf, offsetOf_ofFn, Fin.sum_univ_succ]

theorem offsetOf_bounds : ∀ {s : List Dim} {i : List Int}, InBox s i →
    Shape.flatMin s ≤ offsetOf s i ∧ offsetOf s i ≤ Shape.flatMax s
  | [], [], _ => by simp [offsetOf]
  | d :: ds, i :: is, h => by
    obtain ⟨⟨h1, h2⟩, h3⟩ := h
    obtain ⟨ih1, ih2⟩ := offsetOf_bounds h3
    rw [flatMin_cons, flatMax_cons, offsetOf]
    constructor
    · have : (d.extent - 1) * min 0 d.stride ≤ (i - d.min) * d.stride := by
        rcases le_total 0 d.stride with hs | hs
        · rw [min_eq_left hs]; nlinarith
        · rw [min_eq_right hs]; nlinarith
      omega
    · have : (i - d.min) * d.stride ≤ (d.extent - 1) * max 0 d.stride := by
        rcases le_total 0 d.stride with hs | hs
        · rw [max_eq_right hs]; nlinarith
        · rw [max_eq_left hs]; nlinarith
      omega
  | [], _ :: _, h => h.elim
  | _ :: _, [], h => h.elim

theorem exists_flatMin : ∀ {s : List Dim}, Pos s → ∃ i, InBox s i ∧ offsetOf s i = Shape.flatMin s
  | [], _ => ⟨[], trivial, rfl⟩
  | d :: ds, h => by
    rw [pos_cons] at h
    obtain ⟨is, h1, h2⟩ := exists_flatMin h.2
    rcases le_total 0 d.stride with hs | hs
    · refine ⟨d.min :: is, ⟨⟨le_refl _, by omega⟩, h1⟩, ?_⟩
      rw [flatMin_cons, offsetOf, h2, min_eq_left hs]; ring
    · refine ⟨(d.min + d.extent - 1) :: is, ⟨⟨by omega, by omega⟩, h1⟩, ?_⟩
      rw [flatMin_cons, offsetOf, h2, min_eq_right hs]; ring

theorem exists_flatMax : ∀ {s : List Dim}, Pos s → ∃ i, InBox s i ∧ offsetOf s i = Shape.flatMax s
  | [], _ => ⟨[], trivial, rfl⟩
  | d :: ds, h => by
    rw [pos_cons] at h
    obtain ⟨is, h1, h2⟩ := exists_flatMax h.2
    rcases le_total 0 d.stride with hs | hs
    · refine ⟨(d.min + d.extent - 1) :: is, ⟨⟨by omega, by omega⟩, h1⟩, ?_⟩
      rw [flatMax_cons, offsetOf, h2, max_eq_right hs]; ring
    · refine ⟨d.min :: is, ⟨⟨le_refl _, by omega⟩, h1⟩, ?_⟩
      rw [flatMax_cons, offsetOf, h2, max_eq_left hs]; ring

theorem pos_of_inBox : ∀ {s : List Dim} {i : List Int}, InBox s i → Pos s
  | [], [], _ => by simp [Pos]
  | d :: ds, i :: is, h => by
    rw [pos_cons]; exact ⟨by have := h.1; omega, pos_of_inBox h.2⟩
  | [], _ :: _, h => h.elim
  | _ :: _, [], h => h.elim

theorem inBox_mins : ∀ {s : List Dim}, Pos s → InBox s (s.map Dim.min)
  | [], _ => trivial
  | d :: ds, h => by
    rw [pos_cons] at h
    exact ⟨⟨le_refl _, by omega⟩, inBox_mins h.2⟩

theorem exists_inBox_iff {s : List Dim} : (∃ i, InBox s i) ↔ Pos s :=
  ⟨fun ⟨_, h⟩ => pos_of_inBox h, fun h => ⟨_, inBox_mins h⟩⟩

theorem extent_prod_nonneg : ∀ {s : List Dim}, NonNeg s → 0 ≤ (s.map Dim.extent).prod
  | [], _ => by simp
  | d :: ds, h => by
    rw [nonNeg_cons] at h
    rw [List.map_cons, List.prod_cons]
    exact mul_nonneg h.1 (extent_prod_nonneg h.2)

theorem size_eq_prod_toNat {s : Shape} (h : NonNeg s) :
    s.size = (s.map fun d => d.extent.toNat).prod := by
  rw [size_eq]
  induction s with
  | nil => rfl
  | cons d ds ih =>
    rw [nonNeg_cons] at h
    have hp : 0 ≤ (ds.map Dim.extent).prod := extent_prod_nonneg h.2
    simp only [List.map_cons, List.prod_cons]
    rw [Int.toNat_mul h.1 hp, ih h.2]

theorem size_eq_length {s : Shape} (h : NonNeg s) {l : List Index} (hl : Enumerates s l) :
    l.length = s.size := by
  rw [(hl.perm (boxList_enumerates s)).length_eq, boxList_length, size_eq_prod_toNat h]

theorem size_pos_iff {s : Shape} (h : NonNeg s) : 0 < s.size ↔ Pos s := by
  rw [← size_eq_length h (boxList_enumerates s), List.length_pos_iff_exists_mem,
    ← exists_inBox_iff]
  simp [mem_boxList]

end Nda
