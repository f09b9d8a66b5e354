import Verif.Lemmas.ZOrder
import Mathlib.Data.Fin.VecNotation
import Mathlib.Tactic.FinCases
/-
C40: z-order traversal.
-/
namespace Nda
open Spec

/-- C40: for positive extents the traversal ends, calls the function once for each index of the box and
never outside, in Morton order. -/
theorem C40_indices {n : Nat} (extents : Fin (n + 1) → Int) (h : ∀ d, 0 < extents d) :
    ∃ tr, forEachIndexInZOrder extents = some tr ∧ tr.Nodup ∧
      (∀ i, i ∈ tr ↔ ∀ d, 0 ≤ i d ∧ i d < extents d) ∧ tr.Pairwise MortonLt := by
  obtain ⟨l, e, hm, hp⟩ := forEachIndexInZOrder_ok extents h
  refine ⟨l, e, ?_, hm, hp⟩
  refine hp.imp ?_
  rintro a _ hab rfl
  exact MortonLt.irrefl a hab

/-- Morton order is a strict order, so the calls cannot come in another order. -/
theorem C40_order_asymm {n : Nat} (a b : Fin n → Int) (h : MortonLt a b) : ¬ MortonLt b a := by
  obtain ⟨k, d, h1, h2, h3⟩ := h
  rintro ⟨k', d', h1', h2', h3'⟩
  have mono : ∀ {x y : Int} {i j : Nat}, i ≤ j → x / 2 ^ i = y / 2 ^ i → x / 2 ^ j = y / 2 ^ j := by
    intro x y i j hij hxy
    obtain ⟨m, rfl⟩ := Nat.exists_eq_add_of_le hij
    rw [pow_add, ← Int.ediv_ediv_of_nonneg (by positivity), ← Int.ediv_ediv_of_nonneg (by positivity), hxy]
  rcases lt_trichotomy k k' with hk | rfl | hk
  · have := mono hk (h1 d'); omega
  · rcases lt_trichotomy d d' with hd | rfl | hd
    · have := h2 d' hd; omega
    · omega
    · have := h2' d hd; omega
  · have := mono hk (h1' d); omega

/-- C40: `for_each_in_z_order` over non-empty ranges: the arguments are read from inside the ranges, and
each combination of positions is used once. -/
theorem C40_ranges {n : Nat} {α : Type} (ranges : Fin (n + 1) → List α) (h : ∀ d, ranges d ≠ []) :
    ∃ (pos : List (Fin (n + 1) → Nat)) (tr : List (Fin (n + 1) → Option α)),
      forEachInZOrder ranges = some tr ∧ tr = pos.map (fun i d => (ranges d)[i d]?) ∧ pos.Nodup ∧
      (∀ i, i ∈ pos ↔ ∀ d, i d < (ranges d).length) ∧
      ∀ t ∈ tr, ∀ d, (t d).isSome := by
  obtain ⟨l, e, hnd, hm, _⟩ := C40_indices (fun d => ((ranges d).length : Int)) (by
    intro d
    have := List.length_pos_iff.2 (h d)
    omega)
  have hmem : ∀ i, i ∈ l.map (fun (p : Fin (n + 1) → Int) d => (p d).toNat) ↔ ∀ d, i d < (ranges d).length := by
    intro i
    rw [List.mem_map]
    constructor
    · rintro ⟨p, hp, rfl⟩ d
      have := (hm p).1 hp d
      dsimp only
      omega
    · intro hi
      refine ⟨fun d => (i d : Int), (hm _).2 fun d => ?_, ?_⟩
      · have := hi d; omega
      · funext d; simp
  refine ⟨l.map fun p d => (p d).toNat, _, ?_, rfl, ?_, hmem, ?_⟩
  · unfold forEachInZOrder
    rw [e]
    show some _ = some _
    rw [List.map_map]
    congr 1
    apply List.map_congr_left
    intro p hp
    funext d
    have := (hm p).1 hp d
    rw [if_pos this.1]; rfl
  · refine (List.nodup_map_iff_inj_on hnd).2 ?_
    intro p hp q hq hpq
    funext d
    have h1 := (hm p).1 hp d
    have h2 := (hm q).1 hq d
    have := congrFun hpq d
    omega
  · intro t ht d
    obtain ⟨i, hi, rfl⟩ := List.mem_map.1 ht
    have := (hmem i).1 hi d
    simp [this]

/-- C40: with an empty range (and any other ranges) the function is still called, with an argument read
from outside of the range. -/
theorem C40_empty_range_counterexample :
    forEachInZOrder (n := 1) ![([] : List Nat), [5]] = some [![none, some 5]] := by
  have e : forEachIndexInZOrder (n := 1) ![0, 1] = some [![0, 0]] :=
    forEachIndexInZOrder_eval (m := 1) (by decide) nextPowerOfTwo_one (f := 3) (by decide +kernel)
  have hl : (fun d => ((![([] : List Nat), [5]] d).length : Int)) = ![0, 1] := by
    funext d; fin_cases d <;> rfl
  unfold forEachInZOrder
  rw [hl, e]
  decide +kernel

/-- 3 columns, 2 rows. -/
example : forEachIndexInZOrder (n := 1) ![3, 2] =
    some [![0, 0], ![1, 0], ![0, 1], ![1, 1], ![2, 0], ![2, 1]] :=
  forEachIndexInZOrder_eval (m := 3) (by decide) nextPowerOfTwo_three (f := 6) (by decide +kernel)
example : MortonLt ![1, 1] ![(2 : Int), 0] := ⟨1, 0, by decide, by decide, by decide⟩

end Nda
