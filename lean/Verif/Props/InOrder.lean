import Verif.Lemmas.InOrder
/-
C50: the order of `for_each_value_in_order`.
-/
namespace Nda
open Spec

/-- C50: `for_each_value_in_order(shape, base, fn)` calls `fn` once for each in-range index, with the
address of its element, in increasing index order (first coordinate fastest).  No assumption about the
extents is needed: a non-positive extent means no calls. -/
theorem C50_in_order (s : Shape) (b : Int) :
    ∃ l, Enumerates s l ∧ l.Pairwise ColexLt ∧
      s.forEachValueInOrder (some b) = l.map fun i => b + offsetOf s i :=
  ⟨_, boxList_enumerates s, boxList_pairwise s, forEachValueInOrder_eq s b⟩

/-- C50 for two arrays: the addresses are those of the same index in both, for each index of `s`. -/
theorem C50_in_order_pair (s sa sb : Shape) (ha : List.length sa = List.length s)
    (hb : List.length sb = List.length s) (a b : Int) :
    ∃ l, Enumerates s l ∧ l.Pairwise ColexLt ∧
      Shape.forEachValueInOrder2 s sa (some a) sb (some b) =
        l.map fun i => (a + offsetOf sa i, b + offsetOf sb i) :=
  ⟨_, boxList_enumerates s, boxList_pairwise s, forEachValueInOrder2_eq s sa sb ha hb a b⟩

/-- C50: the order is strict, so the sequence of calls is determined. -/
theorem C50_order_asymm (a b : Index) (h : ColexLt a b) : ¬ ColexLt b a := by
  obtain ⟨hl, k, x, y, hx, hy, hlt, he⟩ := h
  rintro ⟨_, k', x', y', hx', hy', hlt', he'⟩
  rcases Nat.lt_trichotomy k k' with h | rfl | h
  · have := he k' h
    rw [hx', hy'] at this
    simp only [Option.some.injEq] at this
    omega
  · rw [hx] at hy'
    rw [hy] at hx'
    simp only [Option.some.injEq] at hx' hy'
    omega
  · have := he' k h
    rw [hx, hy] at this
    simp only [Option.some.injEq] at this
    omega

/-- A 2×3 shape with a negative stride, and a crop of one array against a transposed layout. -/
example : Shape.forEachValueInOrder [⟨1, 2, -4⟩, ⟨0, 3, 1⟩] (some 100) = [100, 96, 101, 97, 102, 98] := by
  decide +kernel
example : Shape.forEachValueInOrder2 [⟨1, 2, 9⟩, ⟨0, 2, 9⟩] [⟨0, 4, 1⟩, ⟨0, 3, 4⟩] (some 100)
    [⟨1, 2, 2⟩, ⟨0, 2, 1⟩] (some 0) = [(101, 0), (102, 2), (105, 1), (106, 3)] := by decide +kernel

end Nda
