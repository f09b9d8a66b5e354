import Verif.Lemmas.Flat
import Mathlib.Data.Finset.Card
import Mathlib.Order.Interval.Finset.Nat
import Mathlib.Data.Int.Interval
/-
Counting offsets: pigeonhole arguments relating injectivity, the number of indices and the
flat extent.
-/
namespace Nda
open Spec

/-- The set of in-range indices. -/
def boxFin (s : Shape) : Finset (List Int) := (boxList s).toFinset

theorem mem_boxFin {s : Shape} {i : List Int} : i ∈ boxFin s ↔ InBox s i := by
  unfold boxFin; rw [List.mem_toFinset, mem_boxList]

theorem card_boxFin {s : Shape} (h : NonNeg s) : (boxFin s).card = s.size := by
  unfold boxFin
  rw [List.toFinset_card_of_nodup (boxList_enumerates s).1, size_eq_length h (boxList_enumerates s)]

theorem offset_mem_Icc {s : Shape} {i : List Int} (h : i ∈ boxFin s) :
    offsetOf s i ∈ Finset.Icc s.flatMin s.flatMax := by
  rw [Finset.mem_Icc]; exact offsetOf_bounds (mem_boxFin.1 h)

theorem card_flat (s : Shape) : (Finset.Icc s.flatMin s.flatMax).card = s.flatExtent := by
  rw [Int.card_Icc, flatExtent_eq]
  congr 1
  omega

theorem alias_of_not_oneToOne {s : Shape} (h : NonNeg s) (hf : s.isOneToOne = false) :
    ∃ i j, InBox s i ∧ InBox s j ∧ i ≠ j ∧ offsetOf s i = offsetOf s j := by
  unfold Shape.isOneToOne at hf
  rw [decide_eq_false_iff_not, not_le] at hf
  have hlt : (Finset.Icc s.flatMin s.flatMax).card < (boxFin s).card := by
    have := card_flat s
    rw [card_boxFin h]; omega
  obtain ⟨i, hi, j, hj, hne, he⟩ := Finset.exists_ne_map_eq_of_card_lt_of_maps_to hlt
    (f := offsetOf s) (fun i hi => offset_mem_Icc hi)
  exact ⟨i, j, mem_boxFin.1 hi, mem_boxFin.1 hj, hne, he⟩

theorem oneToOne_of_injective {s : Shape} (h : NonNeg s) (hi : Injective s) :
    s.isOneToOne = true := by
  by_contra hc
  obtain ⟨i, j, h1, h2, h3, h4⟩ := alias_of_not_oneToOne h (by simpa using hc)
  exact h3 (hi i j h1 h2 h4)

theorem compact_of_surj {s : Shape} (h : NonNeg s)
    (hs : ∀ o, s.flatMin ≤ o → o ≤ s.flatMax → ∃ i, InBox s i ∧ offsetOf s i = o) :
    s.isCompact = true := by
  unfold Shape.isCompact
  rw [decide_eq_true_eq, ← card_flat, ← card_boxFin h]
  have : Finset.Icc s.flatMin s.flatMax ⊆ (boxFin s).image (offsetOf s) := by
    intro o ho
    rw [Finset.mem_Icc] at ho
    obtain ⟨i, hi, he⟩ := hs o ho.1 ho.2
    exact Finset.mem_image.2 ⟨i, mem_boxFin.2 hi, he⟩
  have := le_trans (Finset.card_le_card this) Finset.card_image_le
  exact this

theorem surj_of_compact {s : Shape} (h : NonNeg s) (hi : Injective s) (hc : s.isCompact = true) :
    ∀ o, s.flatMin ≤ o → o ≤ s.flatMax → ∃ i, InBox s i ∧ offsetOf s i = o := by
  unfold Shape.isCompact at hc
  rw [decide_eq_true_eq, ← card_flat, ← card_boxFin h] at hc
  have hinj : ((boxFin s).image (offsetOf s)).card = (boxFin s).card := by
    apply Finset.card_image_of_injOn
    intro i hi' j hj he
    exact hi i j (mem_boxFin.1 hi') (mem_boxFin.1 hj) he
  have hsub : (boxFin s).image (offsetOf s) ⊆ Finset.Icc s.flatMin s.flatMax := by
    intro o ho
    obtain ⟨i, hi', rfl⟩ := Finset.mem_image.1 ho
    exact offset_mem_Icc hi'
  have heq := Finset.eq_of_subset_of_card_le hsub (by omega)
  intro o h1 h2
  have : o ∈ Finset.Icc s.flatMin s.flatMax := Finset.mem_Icc.2 ⟨h1, h2⟩
  rw [← heq] at this
  obtain ⟨i, hi', he⟩ := Finset.mem_image.1 this
  exact ⟨i, mem_boxFin.1 hi', he⟩

/-- A shape whose offsets cover a range and which has no more indices than that is injective. -/
theorem injective_of_surj {s : Shape} (h : NonNeg s) {lo hi : Int}
    (hs : ∀ o, lo ≤ o → o < hi → ∃ i, InBox s i ∧ offsetOf s i = o) (hsz : (s.size : Int) ≤ hi - lo) :
    Injective s := by
  have hsub : Finset.Ico lo hi ⊆ (boxFin s).image (offsetOf s) := by
    intro o ho
    rw [Finset.mem_Ico] at ho
    obtain ⟨i, hi', he⟩ := hs o ho.1 ho.2
    exact Finset.mem_image.2 ⟨i, mem_boxFin.2 hi', he⟩
  have hcard : ((boxFin s).image (offsetOf s)).card = (boxFin s).card := by
    apply le_antisymm Finset.card_image_le
    have := Finset.card_le_card hsub
    rw [Int.card_Ico] at this
    rw [card_boxFin h]
    omega
  intro i j h1 h2 he
  exact Finset.card_image_iff.1 hcard (mem_boxFin.2 h1) (mem_boxFin.2 h2) he

end Nda
