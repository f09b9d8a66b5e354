import Verif.Lemmas.Flat
/-
C01 (flat offset), C02 (flat extent), C03 (size and empty).
-/
namespace Nda
open Spec

/-! ### C01 -/

/-- C01: `shape(i...)` is `Σ_k (i_k - min_k) * stride_k`, for every rank. -/
theorem C01_offset_formula {n : Nat} (dims : Fin n → Dim) (idx : Fin n → Int) :
    Shape.flatOffset (List.ofFn dims) (List.ofFn idx) =
      ∑ k, (idx k - (dims k).min) * (dims k).stride := by
  rw [flatOffset_eq, offsetOf_ofFn]

/-- C01: the min index is at offset 0. -/
theorem C01_min_offset (s : Shape) : s.flatOffset s.mins = 0 := by
  rw [flatOffset_eq]; exact offsetOf_mins s

/-- C01: moving by `δ` in dim `k` moves the offset by `δ * stride_k`. -/
theorem C01_offset_step {n : Nat} (dims : Fin n → Dim) (idx : Fin n → Int) (k : Fin n) (δ : Int) :
    Shape.flatOffset (List.ofFn dims) (List.ofFn (Function.update idx k (idx k + δ))) =
      Shape.flatOffset (List.ofFn dims) (List.ofFn idx) + δ * (dims k).stride := by
  rw [C01_offset_formula, C01_offset_formula, ← Finset.add_sum_erase _ _ (Finset.mem_univ k),
    ← Finset.add_sum_erase _ (fun j => (idx j - (dims j).min) * (dims j).stride)
      (Finset.mem_univ k)]
  have : ∀ j ∈ Finset.univ.erase k,
      (Function.update idx k (idx k + δ) j - (dims j).min) * (dims j).stride =
      (idx j - (dims j).min) * (dims j).stride := by
    intro j hj
    rw [Function.update_of_ne (Finset.ne_of_mem_erase hj)]
  rw [Finset.sum_congr rfl this, Function.update_self]
  ring

/-- Non-trivial instance: rank 5 (so that the 4-ary `sum` overload recurses), negative and zero
strides, non-zero mins. -/
example : Shape.flatOffset [⟨1, 4, 1⟩, ⟨-2, 3, 4⟩, ⟨0, 2, -12⟩, ⟨5, 2, 0⟩, ⟨0, 3, 24⟩]
    [3, 0, 1, 6, 2] = 2 + 8 - 12 + 0 + 48 := by decide

/-! ### C02 -/

/-- C02: every in-range index of a shape has an offset in `[flat_min(), flat_max()]`. -/
theorem C02_offset_in_flat_range {s : Shape} {i : Index} (h : InBox s i) :
    s.flatMin ≤ s.flatOffset i ∧ s.flatOffset i ≤ s.flatMax := by
  rw [flatOffset_eq]; exact offsetOf_bounds h

/-- C02: both bounds are attained, so the flat range is exact. -/
theorem C02_flat_bounds_attained {s : Shape} (h : Pos s) :
    (∃ i, InBox s i ∧ s.flatOffset i = s.flatMin) ∧
    (∃ i, InBox s i ∧ s.flatOffset i = s.flatMax) := by
  simp only [flatOffset_eq]; exact ⟨exists_flatMin h, exists_flatMax h⟩

/-- C02: an allocation of `flat_extent()` elements whose first element is the one at offset
`flat_min()` contains every in-range element (the zero-based position is in bounds), and no
smaller allocation starting there does. -/
theorem C02_flat_extent_exact {s : Shape} (h : Pos s) :
    (∀ i, InBox s i → 0 ≤ s.flatOffset i - s.flatMin ∧
      s.flatOffset i - s.flatMin < (s.flatExtent : Int)) ∧
    (∀ n : Nat, (∀ i, InBox s i → s.flatOffset i - s.flatMin < (n : Int)) → s.flatExtent ≤ n) := by
  rw [flatExtent_eq]
  constructor
  · intro i hi
    have := C02_offset_in_flat_range hi
    omega
  · intro n hn
    obtain ⟨i, hi, hm⟩ := (C02_flat_bounds_attained h).2
    have := hn i hi
    omega

example : Pos [⟨1, 4, 1⟩, ⟨-2, 3, -4⟩] ∧ InBox [⟨1, 4, 1⟩, ⟨-2, 3, -4⟩] [4, 0] ∧
    Shape.flatMin [⟨1, 4, 1⟩, ⟨-2, 3, -4⟩] = -8 ∧ Shape.flatExtent [⟨1, 4, 1⟩, ⟨-2, 3, -4⟩] = 12 := by
  refine ⟨?_, ?_, by decide, by decide⟩ <;> simp [Pos, InBox]

/-! ### C03 -/

/-- C03: for non-negative extents `size()` is the number of in-range indices (the length of any
list containing each of them once). -/
theorem C03_size_counts_indices {s : Shape} (h : NonNeg s) {l : List Index}
    (hl : Enumerates s l) : s.size = l.length := (size_eq_length h hl).symm

/-- C03: `empty()` is true exactly if there is no in-range index. -/
theorem C03_empty_iff {s : Shape} (h : NonNeg s) : s.empty = true ↔ ¬ ∃ i, InBox s i := by
  rw [exists_inBox_iff, ← size_pos_iff h]
  unfold Shape.empty
  simp

/-- C03, negative part: with two negative extents `size()` is positive and `empty()` is false
although no index is in range. -/
theorem C03_negative_extents_counterexample :
    ∃ s : Shape, s.size = 2 ∧ s.empty = false ∧ ¬ ∃ i, InBox s i := by
  refine ⟨[⟨0, -1, 1⟩, ⟨0, -2, 1⟩], by decide, by decide, ?_⟩
  rw [exists_inBox_iff]; simp [Pos]

example : NonNeg [⟨0, 3, 1⟩, ⟨5, 2, 3⟩] ∧ Shape.size [⟨0, 3, 1⟩, ⟨5, 2, 3⟩] = 6 ∧
    Enumerates [⟨0, 3, 1⟩, ⟨5, 2, 3⟩] [[0,5],[1,5],[2,5],[0,6],[1,6],[2,6]] := by
  refine ⟨by simp [NonNeg], by decide, ?_⟩
  exact boxList_enumerates [⟨0, 3, 1⟩, ⟨5, 2, 3⟩]

end Nda
