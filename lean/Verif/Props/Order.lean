import Verif.Lemmas.Order
import Verif.Props.Strides
import Verif.Model.Ref
/-
C61: the order in which `for_each_value` and `copy` go through memory.
-/
namespace Nda
open Spec

/-- C61: `bubble_sort` sorts (whatever key `<` compares). -/
theorem C61_bubble_sort {α : Type} (lt : α → α → Bool) (f : α → Int) (h : ∀ a b, lt a b = true ↔ f a < f b)
    (l : List α) : (bubbleSort lt l).Perm l ∧ (bubbleSort lt l).Pairwise fun a b => f a ≤ f b :=
  ⟨bubbleSort_perm lt l, bubbleSort_sorted (f := f) (fun a b => by
    by_cases hab : f a < f b
    · rw [(h a b).2 hab, decide_eq_true hab]
    · rw [decide_eq_false hab, Bool.eq_false_iff, Ne, h]; exact hab) l⟩

/-- C61: `for_each_value` visits increasing addresses exactly if the dims can be arranged so that each steps over
everything the dims before it reach, in whatever order the dims are given. -/
theorem C61_increasing_iff (a : ArrayRef) (b : Int) (hb : a.base = some b) (h : Pos a.shape) :
    a.forEachValue.Pairwise (· < ·) ↔ Stackable a.shape := by
  unfold ArrayRef.forEachValue
  rw [hb]
  obtain ⟨p, hp, hs, e⟩ := forEachValue_sorted a.shape (fun d hd => le_of_lt (h d hd)) b
  have hpos : Pos p := fun d hd => h d (hp.mem_iff.1 hd)
  rw [stackable_sorted hp h hs, ← lbox_gaps p hpos 0 le_rfl, lbox_eq_offsets, e, List.pairwise_map, List.pairwise_map]
  constructor
  · intro h; exact h.imp fun h => by omega
  · intro h; exact h.imp fun h => by omega

/-- Increasing addresses that are exactly the places `b, b + 1, …` are visited in this order. -/
theorem consecutive_of_increasing {l : List Int} {b n : Int} (h : l.Pairwise (· < ·))
    (hm : ∀ x, x ∈ l ↔ b ≤ x ∧ x < b + n) : l = ints b n := by
  refine List.Perm.eq_of_pairwise (le := (· < ·)) (fun x y _ _ h1 h2 => absurd h1 (by omega)) h (ints_pairwise b n) ?_
  rw [List.perm_ext_iff_of_nodup (h.imp fun h => ne_of_lt h) (ints_nodup b n)]
  intro x
  rw [hm, mem_ints]

/-- C61: if the elements are consecutive in memory, without two at one place, and no dim goes backward, then
`for_each_value` visits `base, base + 1, …` in this order: transposing or reordering makes no difference. -/
theorem C61_consecutive (a : ArrayRef) (b n : Int) (hb : a.base = some b) (h : Pos a.shape) (hf : Forward a.shape)
    (hi : Injective a.shape) (hg : Gapless a.shape n) :
    (a.forEachValue.length : Int) = n ∧ ∀ k : Nat, (k : Int) < n → a.forEachValue[k]? = some (b + k) := by
  have h1 := (C61_increasing_iff a b hb h).2 (stackable_of_gapless h hf hi hg)
  have h2 : a.forEachValue = ints b n := by
    refine consecutive_of_increasing h1 fun x => ?_
    unfold ArrayRef.forEachValue
    rw [hb, (forEachValue_perm a.shape (fun d hd => le_of_lt (h d hd)) b).mem_iff, List.mem_map]
    have := hg (x - b)
    constructor
    · rintro ⟨i, hi, rfl⟩
      have := (hg _).1 ⟨i, mem_boxList.1 hi, rfl⟩
      omega
    · intro hx
      obtain ⟨i, hi, ho⟩ := this.2 (by omega)
      exact ⟨i, mem_boxList.2 hi, by rw [ho]; ring⟩
  have h0 : 0 < n := by
    have := (hg 0).1 ⟨_, inBox_mins h, offsetOf_mins _⟩
    omega
  rw [h2, ints_length]
  refine ⟨by omega, fun k hk => ?_⟩
  unfold ints
  rw [List.getElem?_map, List.getElem?_range (by omega)]
  rfl

/-- C61: in particular for shapes whose strides are all automatic. -/
theorem C61_automatic (s : Shape) (b : Int) (hpos : Pos s) (hu : ∀ d ∈ s, ¬ Known d)
    (hfit : (List.map Dim.extent s).prod ≤ 9223372036854775807) :
    (ArrayRef.mk (some b) s.resolve).forEachValue.length = s.resolve.size ∧
    ∀ k : Nat, k < s.resolve.size → (ArrayRef.mk (some b) s.resolve).forEachValue[k]? = some (b + k) := by
  obtain ⟨h1, h2, -, -⟩ := C05_dense s hpos hu hfit
  have hp : Pos s.resolve := by rw [resolve_prod hpos hu hfit]; exact prodStrides_pos hpos
  have hf : Forward s.resolve := by
    rw [resolve_prod hpos hu hfit]
    intro d hd _
    have := prodStrides_mem (c := 1) le_rfl hpos hd
    omega
  obtain ⟨h3, h4⟩ := C61_consecutive ⟨some b, s.resolve⟩ b s.resolve.size rfl hp hf h2 h1
  exact ⟨by exact_mod_cast h3, fun k hk => h4 k (by exact_mod_cast hk)⟩

/-- C61: `copy` writes to increasing addresses exactly if the dims of the destination can be arranged in this way,
however the source is arranged. -/
theorem C61_copy (src dst : Shape) (a b : Int) (hl : src.length = dst.length) (h : Pos dst) :
    ((copyForEachValue src (some a) dst (some b)).map Prod.snd).Pairwise (· < ·) ↔ Stackable dst := by
  obtain ⟨p, hp, hs, e⟩ := copyForEachValue_sorted hl (fun d hd => le_of_lt (h d hd)) a b
  have hp' : (p.map CopyDims.dst).Perm dst := by
    have := hp.map CopyDims.dst
    rwa [zipWith_dst hl] at this
  have hs' : (p.map CopyDims.dst).Pairwise fun c d => c.stride ≤ d.stride := List.pairwise_map.2 hs
  generalize p.map CopyDims.dst = q at hp' hs' e
  have hpos : Pos q := fun d hd => h d (hp'.mem_iff.1 hd)
  rw [stackable_sorted hp' h hs', ← lbox_gaps q hpos 0 le_rfl, lbox_eq_offsets, e, List.map_map, List.pairwise_map,
    List.pairwise_map]
  constructor
  · intro h; exact h.imp fun h => by simp only [Function.comp_apply] at h; omega
  · intro h; exact h.imp fun h => by simp only [Function.comp_apply]; omega

/-- C61: "optimized for memory access order" is not true for dims that go backward: in an image of 2 rows of 3,
stored bottom row first, the loop goes down the columns. -/
theorem C61_backward_counterexample : ∃ a : ArrayRef, a.base = some 3 ∧ Pos a.shape ∧ Injective a.shape ∧
    (∀ x, x ∈ a.forEachValue ↔ 0 ≤ x ∧ x < 6) ∧ a.forEachValue = [3, 0, 4, 1, 5, 2] := by
  refine ⟨⟨some 3, [⟨0, 3, 1⟩, ⟨0, 2, -3⟩]⟩, rfl, by simp [Pos], ?_, ?_, by decide +kernel⟩
  · intro i j hi hj h
    obtain ⟨x, i, rfl, hx, hi⟩ := inBox_cons_iff.1 hi
    obtain ⟨y, i, rfl, hy, hi⟩ := inBox_cons_iff.1 hi
    obtain ⟨x', j, rfl, hx', hj⟩ := inBox_cons_iff.1 hj
    obtain ⟨y', j, rfl, hy', hj⟩ := inBox_cons_iff.1 hj
    rw [inBox_nil] at hi hj
    subst hi hj
    simp only [offsetOf] at h
    simp only at hx hy hx' hy'
    have h1 : y = y' := by omega
    have h2 : x = x' := by omega
    rw [h1, h2]
  · intro x
    rw [show ArrayRef.forEachValue ⟨some 3, [⟨0, 3, 1⟩, ⟨0, 2, -3⟩]⟩ = [3, 0, 4, 1, 5, 2] from by decide +kernel]
    simp only [List.mem_cons, List.not_mem_nil, or_false]
    omega

/-! ### Concrete cases -/

/-- A transposed dense image, and one with padded rows: increasing in memory. -/
example : (ArrayRef.mk (some 10) [⟨0, 2, 3⟩, ⟨0, 3, 1⟩]).forEachValue = [10, 11, 12, 13, 14, 15] := by decide +kernel
example : (ArrayRef.mk (some 10) [⟨0, 2, 5⟩, ⟨4, 3, 1⟩]).forEachValue = [10, 11, 12, 15, 16, 17] := by decide +kernel
example : Stackable [⟨0, 2, 5⟩, ⟨4, 3, 1⟩] := ⟨[⟨4, 3, 1⟩, ⟨0, 2, 5⟩], List.Perm.swap _ _ _, by simp [Stacked]⟩
/-- Copying a transposed array: the writes are consecutive. -/
example : copyForEachValue [⟨0, 2, 3⟩, ⟨0, 3, 1⟩] (some 0) [⟨0, 2, 1⟩, ⟨0, 3, 2⟩] (some 100) =
    [(0, 100), (3, 101), (1, 102), (4, 103), (2, 104), (5, 105)] := by decide +kernel
/-- test/sort.cpp. -/
example : bubbleSort (fun a b : Int => decide (a < b)) [3, 1, 2, 1] = [1, 1, 2, 3] := by decide +kernel

end Nda
