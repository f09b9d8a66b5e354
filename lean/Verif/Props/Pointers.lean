import Verif.Lemmas.Pointers
import Verif.Lemmas.Compact
import Verif.Lemmas.ArrayRun
import Verif.Lemmas.ArrayViews
import Verif.Props.Array
/-
C73: the pointers computed by loops over the elements of arrays.
-/
namespace Nda
open Spec

/-- The loops that record pointers call `fn` with the same elements as those of C14 and C15. -/
theorem C73_calls (s : Shape) (b : Option Int) : calls (s.valueEvents b) = s.forEachValue b := by
  unfold Shape.valueEvents Shape.inOrderEvents Shape.forEachValue Shape.forEachValueInOrder
  cases b with
  | none => rfl
  | some b => exact calls_value _ _

theorem C73_calls_copy (src dst : Shape) (a b : Option Int) : calls (copyEvents src a dst b) = copyForEachValue src a dst b := by
  unfold copyEvents copyForEachValue Shape.inOrderEvents2 Shape.forEachValueInOrder2
  cases a with
  | none => rfl
  | some a =>
    cases b with
    | none => rfl
    | some b => simp only [calls]; exact calls_value _ _

theorem between_iff {s : List Dim} (hp : Pos s) (b q : Int) :
    Between s b q ↔ b + Shape.flatMin s ≤ q ∧ q ≤ b + Shape.flatMax s + 1 := by
  constructor
  · rintro ⟨⟨i, hi, h1⟩, j, hj, h2⟩
    have := offsetOf_bounds hi
    have := offsetOf_bounds hj
    omega
  · rintro ⟨h1, h2⟩
    obtain ⟨i, hi, e1⟩ := exists_flatMin hp
    obtain ⟨j, hj, e2⟩ := exists_flatMax hp
    exact ⟨⟨i, hi, by omega⟩, j, hj, by omega⟩

/-- The dims the loop uses: sorted by stride, fused, and padded. -/
theorem optimized_dims (s : Shape) : ∃ l n, optimizeShape s = fuseLoop canFuse fuse l ++ List.replicate n ⟨0, 1, 0⟩ ∧
    l.Perm s ∧ l.Pairwise fun a b : Dim => a.stride ≤ b.stride := by
  have key : ∃ l n, dynamicOptimizeShape s = fuseLoop canFuse fuse l ++ List.replicate n ⟨0, 1, 0⟩ ∧
      l.Perm s ∧ l.Pairwise fun a b : Dim => a.stride ≤ b.stride :=
    ⟨bubbleSort dimLt s, _, rfl, bubbleSort_perm _ _, bubbleSort_sorted (fun _ _ => rfl) _⟩
  unfold optimizeShape
  split
  · exact ⟨_, 0, by simp [fuseLoop], List.Perm.refl _, by simp⟩
  · exact key

theorem flat_of_mbox {s t : List Dim} (hs : Pos s) (ht : Pos t) (h : mbox (s.map es) = mbox (t.map es)) :
    Shape.flatMin s = Shape.flatMin t ∧ Shape.flatMax s = Shape.flatMax t := by
  have key : ∀ {s t : List Dim}, Pos s → mbox (s.map es) = mbox (t.map es) →
      ∀ i, InBox s i → ∃ j, InBox t j ∧ offsetOf t j = offsetOf s i := by
    intro s t _ h i hi
    rw [mbox_eq_offsets, mbox_eq_offsets, Multiset.coe_eq_coe] at h
    have := h.mem_iff.1 (List.mem_map.2 ⟨i, mem_boxList.2 hi, rfl⟩)
    obtain ⟨j, hj, e⟩ := List.mem_map.1 this
    exact ⟨j, mem_boxList.1 hj, e⟩
  have le : ∀ {s t : List Dim}, Pos s → Pos t → mbox (s.map es) = mbox (t.map es) →
      Shape.flatMin t ≤ Shape.flatMin s ∧ Shape.flatMax s ≤ Shape.flatMax t := by
    intro s t hs _ h
    obtain ⟨i, hi, e1⟩ := exists_flatMin hs
    obtain ⟨i', hi', e2⟩ := exists_flatMax hs
    obtain ⟨j, hj, e3⟩ := key hs h i hi
    obtain ⟨j', hj', e4⟩ := key hs h i' hi'
    have := offsetOf_bounds hj
    have := offsetOf_bounds hj'
    omega
  have h1 := le hs ht h
  have h2 := le ht hs h.symm
  omega

theorem flatMin_sum (t : List Dim) : Shape.flatMin t = ((t.map esOf).map fun d => (d.1 - 1) * min 0 d.2).sum := by
  induction t with
  | nil => rfl
  | cons d t ih => rw [flatMin_cons, ih]; simp [esOf]

theorem flat_nonneg {t : List Dim} (h : ∀ d ∈ t, 0 ≤ d.stride) :
    Shape.flatMin t = 0 ∧ Shape.flatMax t = total (t.map esOf) := by
  induction t with
  | nil => exact ⟨rfl, rfl⟩
  | cons d t ih =>
    obtain ⟨h1, h2⟩ := ih fun d hd => h d (by simp [hd])
    have := h d (by simp)
    rw [flatMin_cons, flatMax_cons, h1, h2, min_eq_left this, max_eq_right this, List.map_cons, total_cons]
    exact ⟨by simp, rfl⟩

/-- C73: which arrays can be traversed (filled, constructed, destroyed) without computing a pointer before the first element or more
than one past the last one: exactly those without negative strides and without gaps between the elements of a dim. -/
theorem C73_iff (s : Shape) (hp : Pos s) (b : Int) :
    (∀ q, .form q ∈ s.valueEvents (some b) → Between s b q) ↔ NoGaps s := by
  obtain ⟨l, n, ht, hperm, hsort⟩ := optimized_dims s
  have hpl : Pos l := fun d hd => hp d (hperm.mem_iff.1 hd)
  obtain ⟨hfs, hfh, hfp⟩ := fuse_strides l
  have hpt : Pos (optimizeShape s) := by
    rw [ht]
    intro d hd
    rcases List.mem_append.1 hd with hd | hd
    · exact hfp hpl d hd
    · rw [(List.mem_replicate.1 hd).2]; decide
  have hmb := optimizeShape_mbox s hp.nonNeg
  obtain ⟨hf1, hf2⟩ := flat_of_mbox hpt hp hmb
  have hev : s.valueEvents (some b) = valueEvents ((optimizeShape s).map esOf).reverse b := rfl
  rw [hev]
  simp only [between_iff hp, ← hf1, ← hf2]
  by_cases hneg : ∀ d ∈ s, 0 ≤ d.stride
  · have hnl : ∀ d ∈ l, 0 ≤ d.stride := fun d hd => hneg d (hperm.mem_iff.1 hd)
    have hnt : ∀ d ∈ optimizeShape s, 0 ≤ d.stride := by
      rw [ht]
      intro d hd
      rcases List.mem_append.1 hd with hd | hd
      · obtain ⟨e, he, h⟩ := hfs d hd
        rw [← h]; exact hnl e he
      · rw [(List.mem_replicate.1 hd).2]
    obtain ⟨h1, h2⟩ := flat_nonneg hnt
    have hL : ∀ d ∈ ((optimizeShape s).map esOf).reverse, 0 < d.1 ∧ 0 ≤ d.2 := by
      intro d hd
      rw [List.mem_reverse] at hd
      obtain ⟨e, he, rfl⟩ := List.mem_map.1 hd
      exact ⟨hpt e he, hnt e he⟩
    rw [h1, h2, ← noGaps_perm hperm, noGaps_sorted hpl hsort hnl]
    have h3 : SeqFrom 1 (optimizeShape s) ↔ SeqFrom 1 l := by
      rw [ht, seqFrom_append, seqFrom_fuse]
      refine and_iff_left (seqFrom_pad _ ?_ _)
      have : 0 ≤ total ((fuseLoop canFuse fuse l).map esOf) := by
        refine total_nonneg fun d hd => ?_
        obtain ⟨e, he, rfl⟩ := List.mem_map.1 hd
        obtain ⟨e', he', h⟩ := hfs e he
        refine ⟨hfp hpl e he, ?_⟩
        show 0 ≤ e.stride
        rw [← h]; exact hnl e' he'
      omega
    rw [← h3, ← seqRev_iff, ← forms_le_iff hL b]
    rw [total_perm (List.reverse_perm ((optimizeShape s).map esOf))]
    constructor
    · intro h q hq; exact (h q hq).2
    · intro h q hq; exact ⟨by have := forms_ge hL b q hq; omega, h q hq⟩
  · push Not at hneg
    obtain ⟨d, hd, hlt⟩ := hneg
    refine iff_of_false ?_ fun h => absurd (h d hd).1 (by omega)
    intro h
    obtain ⟨t0, t', hcons, ht0⟩ : ∃ t0 t', optimizeShape s = t0 :: t' ∧ t0.stride < 0 := by
      have hdl := hperm.mem_iff.2 hd
      cases l with
      | nil => simp at hdl
      | cons a l =>
        have ha : a.stride < 0 := by
          rcases List.mem_cons.1 hdl with rfl | hdl
          · exact hlt
          · have := (List.pairwise_cons.1 hsort).1 d hdl; omega
        cases hF : fuseLoop canFuse fuse (a :: l) with
        | nil => rw [hF] at hfh; simp at hfh
        | cons t0 t' =>
          rw [hF] at hfh ht
          simp at hfh
          exact ⟨t0, _, ht, by omega⟩
    rw [hcons] at h hpt
    rw [pos_cons] at hpt
    rw [List.map_cons, List.reverse_cons] at h
    obtain ⟨q, hq, hlt'⟩ := forms_lt (l := (t'.map esOf).reverse) (d0 := esOf t0) (by
      intro d hd
      rw [List.mem_reverse] at hd
      obtain ⟨e, he, rfl⟩ := List.mem_map.1 hd
      exact hpt.2 e he) hpt.1 ht0 b
    have h1 := (h q hq).1
    rw [flatMin_sum] at h1
    have h2 : (((t'.map esOf).reverse ++ [esOf t0]).map fun d => (d.1 - 1) * min 0 d.2).sum =
        (((t0 :: t').map esOf).map fun d => (d.1 - 1) * min 0 d.2).sum := by
      rw [← List.reverse_cons, ← List.map_cons]
      exact ((List.reverse_perm _).map _).sum_eq
    omega

/-! ### Gaps -/

theorem reach_of_lt {s : List Dim} {c : Int} (h0 : ∀ d ∈ s, 0 ≤ d.stride) {i : Index} (hi : InBox s i) (h : offsetOf s i < c) :
    offsetOf s i ≤ ((s.filter fun e => decide (e.stride < c)).map fun e => (e.extent - 1) * e.stride).sum := by
  induction s generalizing i with
  | nil =>
    cases i with
    | nil => simp [offsetOf]
    | cons => exact hi.elim
  | cons d s ih =>
    cases i with
    | nil => exact hi.elim
    | cons x i =>
      obtain ⟨hx, hi⟩ := hi
      rw [offsetOf] at h ⊢
      have hd := h0 d (by simp)
      have hrest : 0 ≤ offsetOf s i := by
        have := (offsetOf_bounds hi).1
        have := (flat_nonneg (t := s) fun d hd => h0 d (by simp [hd])).1
        omega
      have hd' : 0 ≤ (x - d.min) * d.stride := mul_nonneg (by omega) hd
      have ih := ih (fun d hd => h0 d (by simp [hd])) hi (by omega)
      rw [List.filter_cons]
      split
      · rw [List.map_cons, List.sum_cons]
        have : (x - d.min) * d.stride ≤ (d.extent - 1) * d.stride := mul_le_mul_of_nonneg_right (by omega) hd
        omega
      · rename_i hc
        rw [decide_eq_true_eq] at hc
        have : x - d.min = 0 := by
          by_contra hne
          have : 1 * d.stride ≤ (x - d.min) * d.stride := mul_le_mul_of_nonneg_right (by omega) hd
          omega
        rw [this, zero_mul, zero_add]
        exact ih

theorem offsets_perm {s t : List Dim} (h : s.Perm t) {i : Index} (hi : InBox s i) : ∃ j, InBox t j ∧ offsetOf t j = offsetOf s i := by
  have h' := mbox_perm (h.map es)
  rw [mbox_eq_offsets, mbox_eq_offsets, Multiset.coe_eq_coe] at h'
  have := h'.mem_iff.1 (List.mem_map.2 ⟨i, mem_boxList.2 hi, rfl⟩)
  obtain ⟨j, hj, e⟩ := List.mem_map.1 this
  exact ⟨j, mem_boxList.1 hj, e⟩

theorem inBox_append_ptr {s t : List Dim} {i j : Index} (hi : InBox s i) (hj : InBox t j) :
    InBox (s ++ t) (i ++ j) ∧ offsetOf (s ++ t) (i ++ j) = offsetOf s i + offsetOf t j := by
  induction s generalizing i with
  | nil =>
    cases i with
    | nil => exact ⟨hj, by simp [offsetOf]⟩
    | cons => exact hi.elim
  | cons d s ih =>
    cases i with
    | nil => exact hi.elim
    | cons x i =>
      obtain ⟨h1, h2⟩ := ih hi.2
      refine ⟨⟨hi.1, h1⟩, ?_⟩
      rw [List.cons_append, List.cons_append, offsetOf, h2, offsetOf]
      ring

/-- Without gaps every offset is the one of an element. -/
theorem seqFrom_offsets {l : List Dim} (hp : Pos l) (h0 : ∀ d ∈ l, 0 ≤ d.stride) (h : SeqFrom 1 l) (o : Int) (h1 : 0 ≤ o)
    (h2 : o ≤ total (l.map esOf)) : ∃ i, InBox l i ∧ offsetOf l i = o := by
  induction l using List.reverseRecOn generalizing o with
  | nil =>
    have : o = 0 := by simp [total] at h2; omega
    exact ⟨[], trivial, by rw [this]; rfl⟩
  | append_singleton l d ih =>
    obtain ⟨hs1, hs2, -⟩ := (seqFrom_append _ _ _).1 h
    have hpd : 0 < d.extent := hp d (by simp)
    have hsd : 0 ≤ d.stride := h0 d (by simp)
    have ih := ih (fun d hd => hp d (by simp [hd])) (fun d hd => h0 d (by simp [hd])) hs1
    have ht : total ((l ++ [d]).map esOf) = total (l.map esOf) + (d.extent - 1) * d.stride := by
      simp [total, esOf]
    rw [ht] at h2
    obtain ⟨k, hk0, hk1, hk2, hk3⟩ : ∃ k : Int, 0 ≤ k ∧ k < d.extent ∧ 0 ≤ o - k * d.stride ∧
        o - k * d.stride ≤ total (l.map esOf) := by
      by_cases hz : d.stride = 0
      · refine ⟨0, le_refl _, hpd, by omega, ?_⟩
        rw [hz, mul_zero] at h2
        omega
      · have hpos : 0 < d.stride := by omega
        by_cases hc : (d.extent - 1) * d.stride ≤ o
        · exact ⟨d.extent - 1, by omega, by omega, by omega, by omega⟩
        · refine ⟨o / d.stride, Int.ediv_nonneg h1 hsd, ?_, ?_, ?_⟩
          · have : o / d.stride < d.extent - 1 := Int.ediv_lt_of_lt_mul hpos (by omega)
            omega
          · have := Int.ediv_mul_le o (by omega : d.stride ≠ 0)
            omega
          · have := Int.lt_ediv_add_one_mul_self o hpos
            have e1 : (o / d.stride + 1) * d.stride = o / d.stride * d.stride + d.stride := by ring
            omega
    obtain ⟨i, hi, e⟩ := ih _ hk2 hk3
    obtain ⟨h3, h4⟩ := inBox_append_ptr (t := [d]) (j := [d.min + k]) hi ⟨⟨by omega, by omega⟩, trivial⟩
    refine ⟨_, h3, ?_⟩
    rw [h4, e]
    simp only [offsetOf]
    rw [show d.min + k - d.min = k by ring]
    omega

/-- C73, in terms of elements: for arrays without negative strides whose dims have at least two indices, loops stay within the
array exactly if there is no gap between its elements. -/
theorem C73_contiguous (s : Shape) (hp : ∀ d ∈ s, 2 ≤ d.extent ∧ 0 ≤ d.stride) (b : Int) :
    (∀ q, .form q ∈ s.valueEvents (some b) → Between s b q) ↔
      ∀ i j q, InBox s i → InBox s j → offsetOf s i ≤ q → q ≤ offsetOf s j → ∃ k, InBox s k ∧ offsetOf s k = q := by
  have hpos : Pos s := fun d hd => by have := hp d hd; omega
  have h0 : ∀ d ∈ s, 0 ≤ d.stride := fun d hd => (hp d hd).2
  rw [C73_iff s hpos b]
  obtain ⟨hf1, hf2⟩ := flat_nonneg h0
  constructor
  · intro h i j q hi hj h1 h2
    have hperm := bubbleSort_perm dimLt s
    have hp' : Pos (bubbleSort dimLt s) := fun d hd => hpos d (hperm.mem_iff.1 hd)
    have h0' : ∀ d ∈ bubbleSort dimLt s, 0 ≤ d.stride := fun d hd => h0 d (hperm.mem_iff.1 hd)
    have hs := (noGaps_sorted hp' (bubbleSort_sorted (fun _ _ => rfl) _) h0').1 ((noGaps_perm hperm).2 h)
    have b1 := (offsetOf_bounds hi).1
    have b2 := (offsetOf_bounds hj).2
    obtain ⟨k, hk, e⟩ := seqFrom_offsets hp' h0' hs q (by omega) (by
      rw [total_perm (hperm.map esOf)]; omega)
    obtain ⟨k', hk', e'⟩ := offsets_perm hperm hk
    exact ⟨k', hk', by rw [e', e]⟩
  · intro h d hd
    refine ⟨h0 d hd, ?_⟩
    by_contra hc
    obtain ⟨i, hi, e1⟩ := exists_flatMin hpos
    obtain ⟨j, hj, e2⟩ := exists_flatMax hpos
    have hr : 0 ≤ reachBelow s d := by
      unfold reachBelow
      refine List.sum_nonneg fun x hx => ?_
      obtain ⟨e, he, rfl⟩ := List.mem_map.1 hx
      have := hp e (List.mem_filter.1 he).1
      exact mul_nonneg (by omega) this.2
    have hm : d.stride ≤ total (s.map esOf) := by
      have hmem : (d.extent - 1) * d.stride ∈ (s.map esOf).map fun d => (d.1 - 1) * d.2 := by
        rw [List.map_map]
        exact List.mem_map.2 ⟨d, hd, rfl⟩
      have h3 : (d.extent - 1) * d.stride ≤ total (s.map esOf) := by
        refine List.single_le_sum (fun x hx => ?_) _ hmem
        rw [List.map_map] at hx
        obtain ⟨e, he, rfl⟩ := List.mem_map.1 hx
        have := hp e he
        exact mul_nonneg (by simp only [esOf]; omega) this.2
      have := hp d hd
      have h4 : 1 * d.stride ≤ (d.extent - 1) * d.stride := mul_le_mul_of_nonneg_right (by omega) this.2
      omega
    obtain ⟨k, hk, e3⟩ := h i j (1 + reachBelow s d) hi hj (by omega) (by omega)
    have := reach_of_lt (c := d.stride) h0 hk (by omega)
    unfold reachBelow at *
    omega

/-! ### Arrays -/

theorem prodStrides_seq (c : Int) (l : List Dim) : SeqFrom c (prodStrides c l) := by
  induction l generalizing c with
  | nil => trivial
  | cons d l ih =>
    refine ⟨le_refl _, ?_⟩
    show SeqFrom (c + (d.extent - 1) * c) _
    rw [show c + (d.extent - 1) * c = c * d.extent by ring]
    exact ih _

theorem prodStrides_sorted {c : Int} (hc : 0 ≤ c) {l : List Dim} (hp : Pos l) :
    (prodStrides c l).Pairwise (fun a b : Dim => a.stride ≤ b.stride) ∧ ∀ d ∈ prodStrides c l, c ≤ d.stride ∧ 0 < d.extent := by
  induction l generalizing c with
  | nil => exact ⟨List.Pairwise.nil, by simp [prodStrides]⟩
  | cons d l ih =>
    rw [pos_cons] at hp
    have hce : c ≤ c * d.extent := by nlinarith
    obtain ⟨h1, h2⟩ := ih (c := c * d.extent) (by omega) hp.2
    refine ⟨List.pairwise_cons.2 ⟨fun e he => ?_, h1⟩, ?_⟩
    · have := (h2 e he).1
      dsimp only
      omega
    · intro e he
      rcases List.mem_cons.1 he with rfl | he
      · exact ⟨le_refl _, hp.1⟩
      · have := h2 e he
        exact ⟨by omega, this.2⟩

/-- C73: arrays whose strides are computed by the library from the extents alone are traversed without leaving the array. -/
theorem C73_dense (s : Shape) (hp : Pos s) (hfit : (s.map Dim.extent).prod ≤ 9223372036854775807) (b : Int) :
    ∀ q, .form q ∈ ((Shape.bounds s).resolve).valueEvents (some b) → Between (Shape.bounds s).resolve b q := by
  rw [resolve_bounds hp hfit]
  obtain ⟨h1, h2⟩ := prodStrides_sorted (c := 1) (by omega) hp
  have hp' : Pos (prodStrides 1 s) := fun d hd => (h2 d hd).2
  exact (C73_iff _ hp' b).2 ((noGaps_sorted hp' h1 fun d hd => by have := (h2 d hd).1; omega).2 (prodStrides_seq 1 s))

variable {V : Type}

/-- C73 for the arrays of a program: a traversal of an array with elements stays within the memory of the array, or one past its end,
exactly if its shape has no negative strides and no gaps. -/
theorem C73_array (ty : Types V) (hdef : TypesOk ty) (w : World V) (hw : Reachable ty w) (x : Nat) (a : Arr) (b : Nat) (p : Int)
    (blk : Block V) (ha : w.vars x = some a) (hb : a.base = some (b, p)) (hblk : w.heap b = some blk) (hp : Pos a.shape) :
    (∀ q : Int, .form q ∈ a.shape.valueEvents (some p) → 0 ≤ q ∧ q ≤ blk.size) ↔ NoGaps a.shape := by
  rcases ((hw.inv hdef).good x a ha).own with ⟨ho, _⟩ | ⟨b', blk', hh, _⟩
  · rw [ho.base] at hb; simp at hb
  · have e := hh.base
    rw [hb] at e
    simp only [Option.some.injEq, Prod.mk.injEq] at e
    obtain ⟨rfl, rfl⟩ := e
    have e := hh.heap
    rw [hblk] at e
    simp only [Option.some.injEq] at e
    subst e
    rw [← C73_iff a.shape hp (0 - a.shape.flatMin)]
    refine forall_congr' fun q => imp_congr_right fun _ => ?_
    rw [between_iff hp, hh.size]
    have hm1 := offsetOf_bounds (exists_inBox_iff.2 hp).choose_spec
    unfold Shape.flatExtent
    dsimp only
    split <;> omega

/-- C73 for views of arrays: enough is that the view has no negative strides and no gaps. -/
theorem C73_view (ty : Types V) (hdef : TypesOk ty) (w : World V) (hw : Reachable ty w) (x : Nat) (a : Arr) (b : Nat) (p : Int)
    (blk : Block V) (ha : w.vars x = some a) (hb : a.base = some (b, p)) (hblk : w.heap b = some blk) (s : Shape) (off : Int)
    (hpart : PartOk a s off) (hp : Pos s) (hg : NoGaps s) :
    ∀ q : Int, .form q ∈ s.valueEvents (some (p + off)) → 0 ≤ q ∧ q ≤ blk.size := by
  rcases ((hw.inv hdef).good x a ha).own with ⟨ho, _⟩ | ⟨b', blk', hh, _⟩
  · rw [ho.base] at hb; simp at hb
  · have e := hh.base
    rw [hb] at e
    simp only [Option.some.injEq, Prod.mk.injEq] at e
    obtain ⟨rfl, rfl⟩ := e
    have e := hh.heap
    rw [hblk] at e
    simp only [Option.some.injEq] at e
    subst e
    intro q hq
    obtain ⟨⟨i, hi, h1⟩, j, hj, h2⟩ := (C73_iff s hp _).2 hg q hq
    obtain ⟨-, i', hi', e1⟩ := hpart.sub i hi
    obtain ⟨-, j', hj', e2⟩ := hpart.sub j hj
    have b1 := offsetOf_bounds hi'
    have b2 := offsetOf_bounds hj'
    rw [hh.size]
    unfold Shape.flatExtent
    dsimp only
    split <;> omega

/-! ### Copies between arrays with the same shape -/

theorem bubbleInner_map {α β : Type} (g : α → β) (lt : α → α → Bool) (lt' : β → β → Bool) (h : ∀ a b, lt' (g a) (g b) = lt a b)
    (x : α) (l : List α) : bubbleInner lt' (g x) (l.map g) = (g (bubbleInner lt x l).1, (bubbleInner lt x l).2.map g) := by
  induction l generalizing x with
  | nil => rfl
  | cons y l ih =>
    rw [List.map_cons]
    unfold bubbleInner
    rw [h]
    split
    · simp only [ih, List.map_cons]
    · simp only [ih, List.map_cons]

theorem bubbleSort_map {α β : Type} (g : α → β) (lt : α → α → Bool) (lt' : β → β → Bool) (h : ∀ a b, lt' (g a) (g b) = lt a b)
    (l : List α) : bubbleSort lt' (l.map g) = (bubbleSort lt l).map g := by
  induction hn : l.length generalizing l with
  | zero => rw [List.length_eq_zero_iff.1 hn]; simp [bubbleSort]
  | succ n ih =>
    match l with
    | x :: xs =>
      rw [List.map_cons, bubbleSort, bubbleSort, bubbleInner_map g lt lt' h]
      dsimp only
      rw [ih _ (by rw [bubbleInner_length]; simpa using hn)]
      rfl

theorem fuseLoop_map {α β : Type} (g : α → β) (can : α → α → Bool) (can' : β → β → Bool) (f : α → α → α) (f' : β → β → β)
    (h : ∀ a b, can' (g a) (g b) = can a b) (hf : ∀ a b, f' (g a) (g b) = g (f a b)) (l : List α) :
    fuseLoop can' f' (l.map g) = (fuseLoop can f l).map g := by
  induction hn : l.length generalizing l with
  | zero => rw [List.length_eq_zero_iff.1 hn]; simp [fuseLoop]
  | succ n ih =>
    match l with
    | [d] => simp [fuseLoop]
    | d0 :: d1 :: ds =>
      rw [List.map_cons, List.map_cons, fuseLoop, fuseLoop, h, hf]
      split
      · rw [← List.map_cons, ih _ (by simpa using hn)]
      · rw [← List.map_cons, ih (d1 :: ds) (by simpa using hn)]
        rfl

theorem optimizeCopyShapes_same (s : Shape) : optimizeCopyShapes s s = (optimizeShape s, optimizeShape s) := by
  have key : dynamicOptimizeCopyShapes s s = (dynamicOptimizeShape s, dynamicOptimizeShape s) := by
    have hz : List.zipWith CopyDims.mk s s = s.map fun d => ⟨d, d⟩ := by
      induction s with
      | nil => rfl
      | cons d s ih => rw [List.zipWith_cons_cons, ih]; rfl
    unfold dynamicOptimizeCopyShapes dynamicOptimizeShape
    dsimp only
    rw [hz, bubbleSort_map (fun d : Dim => (⟨d, d⟩ : CopyDims)) dimLt copyDimsLt (fun _ _ => rfl),
      fuseLoop_map (fun d : Dim => (⟨d, d⟩ : CopyDims)) canFuse canFuseCopy fuse fuseCopy
        (by intro a b; simp [canFuseCopy]) (fun _ _ => rfl)]
    unfold padTo
    simp [Function.comp_def]
  match s with
  | [] => exact key
  | [d] => rfl
  | _ :: _ :: _ => exact key

theorem denseEvents_pair (e d p1 p2 x y : Int) (h : p1 + d = p2) (hm : .form (x, y) ∈ denseEvents e (p1, p2)) :
    p1 < x ∧ x ≤ e ∧ y = x + d := by
  induction hn : (e - p1).toNat generalizing p1 p2 with
  | zero =>
    rw [denseEvents, if_neg (by simp only [PtrPack.ptr0]; omega)] at hm
    simp at hm
  | succ n ih =>
    rw [denseEvents, if_pos (by simp only [PtrPack.ptr0]; omega)] at hm
    simp only [List.mem_cons, LoopEvent.form.injEq, reduceCtorEq, false_or] at hm
    simp only [PtrPack.inc, Prod.mk.injEq] at hm
    rcases hm with ⟨rfl, rfl⟩ | hm
    · omega
    · have := ih (p1 + 1) (p2 + 1) (by omega) hm (by omega)
      omega

theorem strideEvents_pair (body : Int × Int → List (LoopEvent (Int × Int))) (st : Int) (n : Nat) (p r : Int × Int)
    (h : .form r ∈ strideEvents body (st, st) n p) :
    (∃ k : Nat, k < n ∧ r = (p.1 + (k + 1) * st, p.2 + (k + 1) * st)) ∨
      ∃ k : Nat, k < n ∧ .form r ∈ body (p.1 + k * st, p.2 + k * st) := by
  induction n generalizing p with
  | zero => simp [strideEvents] at h
  | succ n ih =>
    rw [strideEvents, List.mem_append, List.mem_cons] at h
    simp only [LoopEvent.form.injEq] at h
    rcases h with h | rfl | h
    · exact Or.inr ⟨0, by omega, by simpa using h⟩
    · exact Or.inl ⟨0, by omega, by simp [PtrPack.advance]⟩
    · rcases ih _ h with ⟨k, hk, rfl⟩ | ⟨k, hk, h⟩
      · refine Or.inl ⟨k + 1, by omega, ?_⟩
        simp only [PtrPack.advance]
        push_cast
        congr 1 <;> ring
      · refine Or.inr ⟨k + 1, by omega, ?_⟩
        simp only [PtrPack.advance] at h
        convert h using 3 <;> push_cast <;> ring

theorem mem_strideEvents_body {body : Int → List (LoopEvent Int)} {st p : Int} {z : LoopEvent Int} {n k : Nat} (hk : k < n)
    (h : z ∈ body (p + k * st)) : z ∈ strideEvents body st n p := by
  induction n generalizing p k with
  | zero => omega
  | succ n ih =>
    rw [strideEvents, List.mem_append, List.mem_cons]
    cases k with
    | zero => exact Or.inl (by simpa using h)
    | succ k =>
      refine Or.inr (Or.inr (ih (k := k) (by omega) ?_))
      simp only [PtrPack.advance]
      convert h using 2
      push_cast
      ring

theorem mem_valueEvents_rest {e st : Int} {rest : List (Int × Int)} {p : Int} {z : LoopEvent Int} {k : Nat} (hk : k < e.toNat)
    (h : z ∈ valueEvents rest (p + k * st)) : z ∈ valueEvents ((e, st) :: rest) p := by
  cases rest with
  | cons d2 rest =>
    rw [valueEvents]
    · exact mem_strideEvents_body hk h
    · simp
  | nil =>
    rw [valueEvents]
    split
    · rename_i h1
      simp only [PtrPack.allOne, all_iff, List.mem_singleton, forall_eq, beq_iff_eq] at h1
      subst h1
      rw [valueEvents, List.mem_singleton] at h
      subst h
      refine List.mem_cons_of_mem _ ?_
      simp only [PtrPack.ptr0, mul_one]
      have key : ∀ (n : Nat) (e p q : Int), (e - p).toNat = n → p ≤ q → q < e → .call q ∈ denseEvents e p := by
        intro n
        induction n with
        | zero => intro e p q hn h1 h2; omega
        | succ n ih =>
          intro e p q hn h1 h2
          rw [denseEvents, if_pos (by simp only [PtrPack.ptr0]; omega)]
          simp only [List.mem_cons, LoopEvent.call.injEq, reduceCtorEq, false_or]
          by_cases hq : q = p
          · exact Or.inl hq
          · exact Or.inr (ih e (p + 1) q (by omega) (by omega) h2)
      exact key _ _ _ _ rfl (by omega) (by omega)
    · exact mem_strideEvents_body (k := k) hk (by simpa [valueEvents] using h)

/-- Two pointers that are advanced by the same strides. -/
theorem forms_pair (L : List (Int × Int)) (hL : ∀ d ∈ L, 0 < d.1) (p : Int × Int) (x y : Int)
    (h : .form (x, y) ∈ valueEvents (L.map fun d => (d.1, (d.2, d.2))) p) :
    .form x ∈ valueEvents L p.1 ∧ (.form y ∈ valueEvents L p.2 ∨ .call y ∈ valueEvents L p.2) := by
  induction L generalizing p with
  | nil => simp [valueEvents] at h
  | cons d L ih =>
    obtain ⟨e, st⟩ := d
    have he : 0 < e := hL (e, st) (by simp)
    have key : .form (x, y) ∈ strideEvents (valueEvents (L.map fun d => (d.1, (d.2, d.2)))) (st, st) e.toNat p →
        .form x ∈ valueEvents ((e, st) :: L) p.1 ∧
          (.form y ∈ valueEvents ((e, st) :: L) p.2 ∨ .call y ∈ valueEvents ((e, st) :: L) p.2) := by
      intro h
      rcases strideEvents_pair _ _ _ _ _ h with ⟨k, hk, hr⟩ | ⟨k, hk, h⟩
      · simp only [Prod.mk.injEq] at hr
        exact ⟨(mem_valueEvents he _ _).2 (Or.inl ⟨k, by omega, by omega, hr.1⟩),
          Or.inl ((mem_valueEvents he _ _).2 (Or.inl ⟨k, by omega, by omega, hr.2⟩))⟩
      · obtain ⟨h1, h2⟩ := ih (fun d hd => hL d (by simp [hd])) _ h
        exact ⟨mem_valueEvents_rest hk h1, h2.imp (mem_valueEvents_rest hk) (mem_valueEvents_rest hk)⟩
    cases L with
    | cons d2 L =>
      rw [List.map_cons, valueEvents] at h
      · exact key h
      · simp
    | nil =>
      rw [List.map_cons, List.map_nil, valueEvents] at h
      split at h
      · rename_i h1
        have hst : st = 1 := by
          simp only [PtrPack.allOne, all_iff, List.mem_cons, List.not_mem_nil, or_false, forall_eq_or_imp, forall_eq, beq_iff_eq] at h1
          exact h1.1
        subst hst
        rcases List.mem_cons.1 h with h | h
        · simp only [LoopEvent.form.injEq, PtrEnd.endOf, Prod.mk.injEq] at h
          refine ⟨(mem_valueEvents he _ _).2 (Or.inl ⟨e - 1, by omega, by omega, by rw [h.1]; ring⟩), Or.inr ?_⟩
          rw [h.2]
          exact mem_valueEvents_rest (k := 0) (by omega) (by simp [valueEvents])
        · obtain ⟨a1, a2, a3⟩ := denseEvents_pair _ (p.2 - p.1) p.1 p.2 x y (by ring) h
          simp only [PtrPack.ptr0] at a2
          exact ⟨(mem_valueEvents he _ _).2 (Or.inl ⟨x - p.1 - 1, by omega, by omega, by ring⟩),
            Or.inl ((mem_valueEvents he _ _).2 (Or.inl ⟨x - p.1 - 1, by omega, by omega, by rw [a3]; ring⟩))⟩
      · exact key h

theorem mem_calls {P : Type} {l : List (LoopEvent P)} {p : P} : p ∈ calls l ↔ .call p ∈ l := by
  induction l with
  | nil => simp [calls]
  | cons a l ih => cases a <;> simp [calls, ih]

/-- C73: a copy between two arrays with the same shape, without negative strides and gaps, stays within both. -/
theorem C73_copy_same (s : Shape) (hp : Pos s) (hg : NoGaps s) (a b : Int) :
    ∀ x y, .form (x, y) ∈ copyEvents s (some a) s (some b) → Between s a x ∧ Between s b y := by
  intro x y h
  have hcall : ∀ c q : Int, .call q ∈ s.valueEvents (some c) → Between s c q := by
    intro c q hq
    rw [← mem_calls, C73_calls, (forEachValue_perm s hp.nonNeg c).mem_iff] at hq
    obtain ⟨i, hi, rfl⟩ := List.mem_map.1 hq
    rw [mem_boxList] at hi
    exact ⟨⟨i, hi, le_refl _⟩, i, hi, by omega⟩
  unfold copyEvents at h
  rw [optimizeCopyShapes_same] at h
  dsimp only [Shape.inOrderEvents2] at h
  have h0 : (optimizeShape s).flatOffset (optimizeShape s).mins = 0 := by
    rw [flatOffset_eq]
    exact offsetOf_mins _
  rw [h0, add_zero, add_zero] at h
  have hpt : Pos (optimizeShape s) := by
    obtain ⟨l, n, ht, hperm, -⟩ := optimized_dims s
    rw [ht]
    intro d hd
    rcases List.mem_append.1 hd with hd | hd
    · exact (fuse_strides l).2.2 (fun d hd => hp d (hperm.mem_iff.1 hd)) d hd
    · rw [(List.mem_replicate.1 hd).2]; decide
  rcases List.mem_cons.1 h with h | h
  · simp only [LoopEvent.form.injEq, Prod.mk.injEq] at h
    obtain ⟨rfl, rfl⟩ := h
    have hm := inBox_mins hp
    have hz := offsetOf_mins s
    exact ⟨⟨⟨_, hm, by omega⟩, _, hm, by omega⟩, ⟨_, hm, by omega⟩, _, hm, by omega⟩
  · have hz : (List.zip (optimizeShape s).extents (List.zip (optimizeShape s).strides (optimizeShape s).strides)).reverse =
        ((optimizeShape s).map esOf).reverse.map fun d => (d.1, (d.2, d.2)) := by
      rw [List.map_reverse, List.map_map]
      congr 1
      generalize optimizeShape s = t
      induction t with
      | nil => rfl
      | cons d t ih =>
        show (d.extent, (d.stride, d.stride)) :: List.zip (Shape.extents t) (List.zip (Shape.strides t) (Shape.strides t)) = _
        rw [ih]
        rfl
    rw [hz] at h
    obtain ⟨h1, h2⟩ := forms_pair _ (by
      intro d hd
      rw [List.mem_reverse] at hd
      obtain ⟨e, he, rfl⟩ := List.mem_map.1 hd
      exact hpt e he) _ _ _ h
    refine ⟨(C73_iff s hp a).2 hg x h1, ?_⟩
    rcases h2 with h2 | h2
    · exact (C73_iff s hp b).2 hg y h2
    · exact hcall b y h2

/-! ### Examples -/

/-- The pointers a trace computes. -/
def formed {P : Type} : List (LoopEvent P) → List P
  | [] => []
  | .form p :: l => p :: formed l
  | .call _ :: l => formed l

/-- A dense 2×3 array is one loop of 6. -/
example : let s : Shape := [⟨4, 2, 1⟩, ⟨-1, 3, 2⟩]
    formed (s.valueEvents (some 0)) = [6, 1, 2, 3, 4, 5, 6, 0] ∧ calls (s.valueEvents (some 0)) = [0, 1, 2, 3, 4, 5] := by
  decide +kernel

/-- An interleaved array with 3 channels, the same; its shape is not sorted. -/
example : NoGaps [⟨0, 5, 3⟩, ⟨0, 4, 15⟩, ⟨0, 3, 1⟩] := by unfold NoGaps reachBelow; decide
example : ¬ NoGaps [⟨0, 5, 4⟩, ⟨0, 4, 20⟩, ⟨0, 3, 1⟩] := by unfold NoGaps reachBelow; decide

/-- C73 does not hold for all arrays.  A vector with stride 2 and 3 elements has 5 elements of memory; filling it computes the pointer
to element 6.  With stride -1, the last pointer is before the memory, which starts at -2 from the base. -/
theorem C73_counterexample :
    formed (Shape.valueEvents [⟨0, 3, 2⟩] (some 0)) = [2, 4, 6] ∧ Shape.flatExtent [⟨0, 3, 2⟩] = 5 ∧
    formed (Shape.valueEvents [⟨0, 3, -1⟩] (some 2)) = [1, 0, -1] ∧ Shape.flatExtent [⟨0, 3, -1⟩] = 3 ∧
    formed (Shape.valueEvents [⟨0, 2, 1⟩, ⟨0, 2, 5⟩] (some 0)) = [2, 1, 2, 5, 7, 6, 7, 10] ∧
    Shape.flatExtent [⟨0, 2, 1⟩, ⟨0, 2, 5⟩] = 7 ∧
    ¬ (∀ q, .form q ∈ Shape.valueEvents [⟨0, 3, 2⟩] (some 0) → Between [⟨0, 3, 2⟩] 0 q) := by
  refine ⟨by decide +kernel, by decide +kernel, by decide +kernel, by decide +kernel, by decide +kernel, by decide +kernel, ?_⟩
  rw [C73_iff _ (by unfold Pos; decide)]
  unfold NoGaps reachBelow
  decide

/-- Nor for views of dense arrays: traversing row 1 of a 2×3 array in column major order, `for_each_value` on `a(1, _)`, computes the
pointer to element 7 of 6. -/
theorem C73_row_counterexample :
    formed (Shape.valueEvents [⟨0, 3, 2⟩] (some 1)) = [3, 5, 7] ∧ Shape.flatExtent [⟨0, 2, 1⟩, ⟨0, 3, 2⟩] = 6 := by
  decide +kernel

/-- A dim with one index only has no gaps, but its stride is added all the same. -/
theorem C73_extent_one_counterexample :
    formed (Shape.valueEvents [⟨0, 3, 1⟩, ⟨7, 1, 1000⟩] (some 0)) = [3, 1, 2, 3, 1000] ∧
    Shape.flatExtent [⟨0, 3, 1⟩, ⟨7, 1, 1000⟩] = 3 := by decide +kernel

/-- Nor for copies between dense arrays: copying a 2×3 array in row major order to one in column major order computes a pointer to
element 8 of the source. -/
theorem C73_copy_counterexample :
    formed (copyEvents [⟨0, 2, 3⟩, ⟨0, 3, 1⟩] (some 0) [⟨0, 2, 1⟩, ⟨0, 3, 2⟩] (some 100)) =
      [(0, 100), (3, 101), (6, 102), (1, 102), (4, 103), (7, 104), (2, 104), (5, 105), (8, 106), (3, 106)] ∧
    Shape.flatExtent [⟨0, 2, 3⟩, ⟨0, 3, 1⟩] = 6 := by decide +kernel

end Nda
