import Verif.Model.Loops
import Verif.Lemmas.Basic
import Mathlib.Data.List.Nodup
import Mathlib.Data.List.Perm.Lattice
import Mathlib.Data.List.Flatten

namespace Nda
open Spec

/-- The integers `min, …, min + extent - 1`. -/
def ints (m e : Int) : List Int := (List.range e.toNat).map fun k : Nat => m + (k : Int)

theorem mem_ints {m e i : Int} : i ∈ ints m e ↔ m ≤ i ∧ i < m + e := by
  simp only [ints, List.mem_map, List.mem_range]
  constructor
  · rintro ⟨k, hk, rfl⟩; omega
  · intro h; exact ⟨(i - m).toNat, by omega, by omega⟩

theorem ints_length (m e : Int) : (ints m e).length = e.toNat := by simp [ints]

theorem ints_pairwise (m e : Int) : (ints m e).Pairwise (· < ·) := by
  unfold ints
  rw [List.pairwise_map]
  exact List.pairwise_lt_range.imp (fun h => by omega)

theorem ints_nodup (m e : Int) : (ints m e).Nodup :=
  (ints_pairwise m e).imp (fun h => by omega)

theorem ints_eq_nil {m e : Int} (h : e ≤ 0) : ints m e = [] := by
  unfold ints; rw [Int.toNat_of_nonpos h]; rfl

theorem ints_succ {m e : Int} (h : 0 < e) : ints m e = m :: ints (m + 1) (e - 1) := by
  unfold ints
  obtain ⟨n, hn⟩ : ∃ n : Nat, e = (n : Int) + 1 := ⟨(e - 1).toNat, by omega⟩
  subst hn
  have h1 : ((n : Int) + 1).toNat = n + 1 := by omega
  have h2 : ((n : Int) + 1 - 1).toNat = n := by omega
  rw [h1, h2, List.range_succ_eq_map]
  simp only [List.map_cons, List.map_map]
  congr 1
  · simp
  · apply List.map_congr_left; intro k _; simp only [Function.comp]; push_cast; ring

theorem rangeFor_eq (n : Nat) (i : Int) : rangeFor i (i + n) = some (ints i n) := by
  induction n generalizing i with
  | zero => rw [rangeFor]; simp [ints_eq_nil]
  | succ n ih =>
    rw [rangeFor, if_neg (by push_cast; omega)]
    have : i + ((n + 1 : Nat) : Int) = (i + 1) + n := by push_cast; ring
    rw [this, ih, ints_succ (m := i) (by push_cast; omega)]
    simp

theorem rangeFor_some {i e : Int} {l : List Int} (h : rangeFor i e = some l) : i ≤ e := by
  refine rangeFor.partial_correctness e (fun i _ => i ≤ e) ?_ i l h
  intro f ih i r hr
  split at hr
  · omega
  · cases hf : f (i + 1) with
    | none => simp [hf] at hr
    | some rest => have := ih _ _ hf; omega

theorem rangeFor_iff {i e : Int} {l : List Int} :
    rangeFor i e = some l ↔ i ≤ e ∧ l = ints i (e - i) := by
  constructor
  · intro h
    have hle := rangeFor_some h
    refine ⟨hle, ?_⟩
    have := rangeFor_eq (e - i).toNat i
    rw [show i + ((e - i).toNat : Int) = e by omega, h] at this
    rw [Option.some.injEq] at this
    rw [this, show ((e - i).toNat : Int) = e - i by omega]
  · rintro ⟨hle, rfl⟩
    have := rangeFor_eq (e - i).toNat i
    rw [show i + ((e - i).toNat : Int) = e by omega] at this
    rw [this, show ((e - i).toNat : Int) = e - i by omega]

theorem Dim.iterate_eq {d : Dim} (h : 0 ≤ d.extent) : d.iterate = some (ints d.min d.extent) := by
  unfold Dim.iterate
  rw [rangeFor_iff]
  unfold Dim.begin_ Dim.end_ Dim.max
  exact ⟨by omega, by congr 1; omega⟩

theorem Dim.iterate_none {d : Dim} (h : d.extent < 0) : d.iterate = none := by
  unfold Dim.iterate
  rw [Option.eq_none_iff_forall_not_mem]
  intro l hl
  have := rangeFor_some (Option.mem_def.1 hl)
  unfold Dim.begin_ Dim.end_ Dim.max at this
  omega

theorem forBody_some {α β : Type} (f : α → Option (List β)) (g : α → List β) (l : List α)
    (h : ∀ a ∈ l, f a = some (g a)) : forBody f l = some (l.flatMap g) := by
  induction l with
  | nil => rfl
  | cons a as ih =>
    rw [forBody, h a (by simp), ih (fun b hb => h b (by simp [hb]))]
    simp

/-- One-dim-at-a-time loop nest, outermost dim first. -/
def nest : List Dim → Index → List Index
  | [], idx => [idx]
  | d :: ds, idx => (ints d.min d.extent).flatMap fun i => nest ds (i :: idx)

theorem forEachIndexImpl_eq : ∀ (dims : List Dim) (idx : Index), NonNeg dims →
    forEachIndexImpl dims idx = some (nest dims idx)
  | [], idx, _ => rfl
  | [d], idx, h => by
    rw [forEachIndexImpl, Dim.iterate_eq (h d (by simp))]
    simp only [Option.bind_eq_bind, Option.bind_some, nest]
    exact forBody_some _ _ _ (fun _ _ => rfl)
  | [d0, d1], idx, h => by
    rw [forEachIndexImpl, Dim.iterate_eq (h d0 (by simp)), Dim.iterate_eq (h d1 (by simp))]
    simp only [Option.bind_eq_bind, Option.bind_some, nest]
    exact forBody_some _ _ _ (fun _ _ => forBody_some _ _ _ (fun _ _ => rfl))
  | d0 :: d1 :: d2 :: ds, idx, h => by
    rw [forEachIndexImpl, Dim.iterate_eq (h d0 (by simp)), Dim.iterate_eq (h d1 (by simp))]
    · simp only [Option.bind_eq_bind, Option.bind_some]
      rw [nest]
      refine forBody_some _ _ _ (fun i _ => ?_)
      rw [nest]
      refine forBody_some _ _ _ (fun j _ => ?_)
      exact forEachIndexImpl_eq (d2 :: ds) _ (fun d hd => h d (by simp at hd ⊢; tauto))
    · intro h; simp at h

/-- Enumeration of the box, first coordinate fastest. -/
def boxList : List Dim → List Index
  | [] => [[]]
  | d :: ds => (boxList ds).flatMap fun is => (ints d.min d.extent).map fun i => i :: is

theorem boxList_append_singleton (s : List Dim) (d : Dim) :
    boxList (s ++ [d]) = (ints d.min d.extent).flatMap fun i => (boxList s).map (· ++ [i]) := by
  induction s with
  | nil =>
    simp only [List.nil_append, boxList, List.flatMap_cons, List.flatMap_nil, List.append_nil,
      List.map_cons, List.map_nil]
    exact (List.flatMap_pure_eq_map _ _).symm
  | cons e s ih =>
    rw [List.cons_append, boxList, ih, boxList]
    simp only [List.flatMap_assoc, List.map_flatMap, List.flatMap_map, List.map_map,
      Function.comp_def, List.cons_append]

theorem nest_eq (dims : List Dim) (idx : Index) :
    nest dims idx = (boxList dims.reverse).map (· ++ idx) := by
  induction dims generalizing idx with
  | nil => simp [nest, boxList]
  | cons d ds ih =>
    rw [nest, List.reverse_cons, boxList_append_singleton]
    simp only [ih, List.map_flatMap, List.map_map, Function.comp_def, List.append_assoc,
      List.singleton_append]

theorem forEachIndex_eq {s : Shape} (h : NonNeg s) : s.forEachIndex = some (boxList s) := by
  unfold Shape.forEachIndex
  rw [forEachIndexImpl_eq _ _ (fun d hd => h d (by simpa using hd)), nest_eq]
  simp

theorem mem_boxList {s : List Dim} {i : Index} : i ∈ boxList s ↔ InBox s i := by
  induction s generalizing i with
  | nil => rw [inBox_nil]; simp [boxList]
  | cons d ds ih =>
    rw [boxList, inBox_cons_iff]
    simp only [List.mem_flatMap, List.mem_map, ih, mem_ints]
    constructor
    · rintro ⟨is, his, x, hx, rfl⟩; exact ⟨x, is, rfl, hx, his⟩
    · rintro ⟨x, is, rfl, hx, his⟩; exact ⟨is, his, x, hx, rfl⟩

theorem Spec.ColexLt.cons_of_lt {i j : Int} {is : Index} (h : i < j) : ColexLt (i :: is) (j :: is) := by
  refine ⟨rfl, 0, i, j, rfl, rfl, h, ?_⟩
  intro k hk
  cases k with
  | zero => omega
  | succ k => rfl

theorem Spec.ColexLt.cons {i j : Int} {is js : Index} (h : ColexLt is js) :
    ColexLt (i :: is) (j :: js) := by
  obtain ⟨hl, k, x, y, hx, hy, hxy, hk⟩ := h
  refine ⟨by simp [hl], k + 1, x, y, by simpa using hx, by simpa using hy, hxy, ?_⟩
  intro m hm
  cases m with
  | zero => omega
  | succ m => simpa using hk m (by omega)

theorem Spec.ColexLt.ne {a b : Index} (h : ColexLt a b) : a ≠ b := by
  rintro rfl
  obtain ⟨_, k, x, y, hx, hy, hxy, _⟩ := h
  rw [hx] at hy
  simp at hy
  omega

theorem boxList_pairwise (s : List Dim) : (boxList s).Pairwise ColexLt := by
  induction s with
  | nil => simp [boxList]
  | cons d ds ih =>
    rw [boxList, List.pairwise_flatMap]
    constructor
    · intro is _
      rw [List.pairwise_map]
      exact (ints_pairwise _ _).imp ColexLt.cons_of_lt
    · refine ih.imp ?_
      intro is js hij x hx y hy
      simp only [List.mem_map] at hx hy
      obtain ⟨i, _, rfl⟩ := hx
      obtain ⟨j, _, rfl⟩ := hy
      exact hij.cons

theorem boxList_nodup (s : List Dim) : (boxList s).Nodup :=
  (boxList_pairwise s).imp ColexLt.ne

theorem boxList_enumerates (s : List Dim) : Enumerates s (boxList s) :=
  ⟨boxList_nodup s, fun _ => mem_boxList⟩

theorem Spec.Enumerates.perm {s : List Dim} {l l' : List Index} (h : Enumerates s l)
    (h' : Enumerates s l') : l.Perm l' :=
  (List.perm_ext_iff_of_nodup h.1 h'.1).2 fun i => (h.2 i).trans (h'.2 i).symm

theorem boxList_length (s : List Dim) :
    (boxList s).length = (s.map fun d => d.extent.toNat).prod := by
  induction s with
  | nil => rfl
  | cons d ds ih =>
    rw [boxList, List.length_flatMap]
    simp only [List.length_map, ints_length, List.map_const', List.sum_replicate, ih,
      List.map_cons, List.prod_cons]
    simp [Nat.mul_comm]

end Nda
