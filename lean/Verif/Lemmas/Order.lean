import Verif.Lemmas.Values
import Verif.Lemmas.InOrder
import Verif.Spec.Order
import Mathlib.Data.List.Sort
import Mathlib.Tactic.Linarith
/-
The order of `for_each_value` (C61): sorting, and that fusing dims keeps the sequence of addresses.
-/
namespace Nda
open Spec

/-! ### Sorting -/

theorem bubbleInner_le {α : Type} {lt : α → α → Bool} {f : α → Int} (h : ∀ a b, lt a b = decide (f a < f b))
    (x : α) (l : List α) :
    f (bubbleInner lt x l).1 ≤ f x ∧ ∀ z ∈ (bubbleInner lt x l).2, f (bubbleInner lt x l).1 ≤ f z := by
  induction l generalizing x with
  | nil => simp [bubbleInner]
  | cons y ys ih =>
    unfold bubbleInner
    split
    · rename_i hlt
      rw [h, decide_eq_true_eq] at hlt
      obtain ⟨h1, h2⟩ := ih y
      refine ⟨by dsimp only; omega, fun z hz => ?_⟩
      rcases List.mem_cons.1 hz with rfl | hz
      · dsimp only; omega
      · exact h2 z hz
    · rename_i hlt
      rw [h, decide_eq_true_eq] at hlt
      obtain ⟨h1, h2⟩ := ih x
      refine ⟨h1, fun z hz => ?_⟩
      rcases List.mem_cons.1 hz with rfl | hz
      · dsimp only; omega
      · exact h2 z hz

theorem bubbleSort_sorted {α : Type} {lt : α → α → Bool} {f : α → Int} (h : ∀ a b, lt a b = decide (f a < f b))
    (l : List α) : (bubbleSort lt l).Pairwise fun a b => f a ≤ f b := by
  induction hn : l.length generalizing l with
  | zero => rw [List.length_eq_zero_iff.1 hn, bubbleSort]; simp
  | succ n ih =>
    match l with
    | x :: xs =>
      rw [bubbleSort]
      refine List.pairwise_cons.2 ⟨fun z hz => ?_, ih _ (by rw [bubbleInner_length]; simpa using hn)⟩
      rw [(bubbleSort_perm lt _).mem_iff] at hz
      exact (bubbleInner_le h x xs).2 z hz

/-! ### The sequence of offsets -/

section
variable {P : Type} [AddCommGroup P]

/-- The offsets `Σ i_k • s_k` with `i_k < n_k`, the first dim fastest. -/
def lbox : List (Nat × P) → List P
  | [] => [0]
  | (n, s) :: ds => (lbox ds).flatMap fun q => (List.range n).map fun i => i • s + q

theorem lbox_cons (n : Nat) (s : P) (ds : List (Nat × P)) :
    lbox ((n, s) :: ds) = (lbox ds).flatMap fun q => (List.range n).map fun i => i • s + q := rfl

theorem range_mul {β : Type} (n m : Nat) (f : Nat → β) :
    (List.range (n * m)).map f = (List.range m).flatMap fun j => (List.range n).map fun i => f (i + j * n) := by
  induction m with
  | zero => simp
  | succ m ih =>
    rw [Nat.mul_succ, List.range_add, List.map_append, ih, List.range_succ, List.flatMap_append]
    simp only [List.flatMap_cons, List.flatMap_nil, List.append_nil, List.map_map, Function.comp_def]
    congr 1
    apply List.map_congr_left
    intro i _
    congr 1
    ring

theorem lbox_fuse (n m : Nat) (s : P) (ds : List (Nat × P)) :
    lbox ((n, s) :: (m, n • s) :: ds) = lbox ((n * m, s) :: ds) := by
  simp only [lbox_cons, List.flatMap_assoc, List.flatMap_map]
  congr 1
  ext1 q
  rw [range_mul]
  congr 1
  ext1 j
  apply List.map_congr_left
  intro i _
  rw [add_smul, mul_smul, add_assoc]

theorem lbox_pad (l : List (Nat × P)) (k : Nat) : lbox (l ++ List.replicate k (1, (0 : P))) = lbox l := by
  induction l with
  | nil =>
    induction k with
    | zero => rfl
    | succ k ih =>
      rw [List.replicate_succ, List.nil_append, lbox_cons]
      rw [List.nil_append] at ih
      rw [ih]
      simp [lbox, List.range_succ]
  | cons d l ih =>
    obtain ⟨n, s⟩ := d
    rw [List.cons_append, lbox_cons, lbox_cons, ih]

end

theorem lbox_eq_offsets (s : List Dim) : lbox (s.map es) = (boxList s).map (offsetOf s) := by
  induction s with
  | nil => simp [lbox, boxList, offsetOf]
  | cons d ds ih =>
    rw [List.map_cons, boxList]
    show lbox ((d.extent.toNat, d.stride) :: ds.map es) = _
    rw [lbox_cons, ih, List.map_flatMap, List.flatMap_map]
    congr 1
    ext1 is
    simp only [ints, List.map_map, Function.comp_def, offsetOf]
    apply List.map_congr_left
    intro i _
    rw [nsmul_eq_mul]; ring

theorem fuseLoop_lbox (l : List Dim) (h : NonNeg l) :
    lbox ((fuseLoop canFuse fuse l).map es) = lbox (l.map es) := by
  induction hn : l.length generalizing l with
  | zero => rw [List.length_eq_zero_iff.1 hn, fuseLoop]
  | succ n ih =>
    match l with
    | [d] => rw [fuseLoop]
    | d0 :: d1 :: ds =>
      have h' := h
      rw [nonNeg_cons, nonNeg_cons] at h'
      obtain ⟨h0, h1, hds⟩ := h'
      rw [fuseLoop]
      split
      · rename_i hc
        rw [canFuse_iff] at hc
        have := ih (fuse d0 d1 :: ds) (by
          rw [nonNeg_cons]; exact ⟨mul_nonneg h0 h1, hds⟩) (by simpa using hn)
        refine this.trans ?_
        rw [List.map_cons, List.map_cons, List.map_cons]
        have e1 : es (fuse d0 d1) = (d0.extent.toNat * d1.extent.toNat, d0.stride) := by
          simp [es, fuse, Int.toNat_mul h0 h1]
        have e2 : es d1 = (d1.extent.toNat, d0.extent.toNat • d0.stride) := by
          simp only [es, Prod.mk.injEq, true_and]
          rw [nsmul_eq_mul, Int.natCast_toNat_eq_self.2 h0, ← hc, mul_comm]
        rw [e1, e2, ← lbox_fuse]
        rfl
      · have := ih (d1 :: ds) (by rw [nonNeg_cons]; exact ⟨h1, hds⟩) (by simpa using hn)
        rw [List.map_cons, List.map_cons]
        show lbox ((_, _) :: _) = lbox ((_, _) :: _)
        rw [lbox_cons, lbox_cons, this]

/-- `for_each_value` visits the elements in the order of the dims sorted by stride. -/
theorem forEachValue_sorted (s : Shape) (h : NonNeg s) (b : Int) :
    ∃ p : List Dim, p.Perm s ∧ p.Pairwise (fun a b => a.stride ≤ b.stride) ∧
      s.forEachValue (some b) = (boxList p).map fun i => b + offsetOf p i := by
  have key : (optimizeShape s = s ∧ List.length s = 1) ∨ optimizeShape s = dynamicOptimizeShape s := by
    unfold optimizeShape
    split
    · exact Or.inl ⟨rfl, rfl⟩
    · exact Or.inr rfl
  unfold Shape.forEachValue
  rcases key with ⟨e, hl⟩ | e
  · refine ⟨s, List.Perm.refl _, ?_, by rw [e, forEachValueInOrder_eq]⟩
    obtain ⟨d, rfl⟩ := List.length_eq_one_iff.1 hl
    simp
  · refine ⟨bubbleSort dimLt s, bubbleSort_perm _ _, bubbleSort_sorted (fun _ _ => rfl) _, ?_⟩
    rw [e, forEachValueInOrder_eq]
    have h1 : (boxList (dynamicOptimizeShape s)).map (offsetOf (dynamicOptimizeShape s)) =
        (boxList (bubbleSort dimLt s)).map (offsetOf (bubbleSort dimLt s)) := by
      rw [← lbox_eq_offsets, ← lbox_eq_offsets, dynamicOptimizeShape]
      unfold padTo
      rw [List.map_append, List.map_replicate, show es ⟨0, 1, 0⟩ = (1, 0) from rfl, lbox_pad,
        fuseLoop_lbox _ (bubbleSort_nonNeg h)]
    have h2 := congrArg (List.map fun o : Int => b + o) h1
    rw [List.map_map, List.map_map] at h2
    exact h2

/-! ### Copies -/

theorem fuseCopy_lbox (l : List CopyDims) (h : ∀ d ∈ l, 0 ≤ d.dst.extent) :
    lbox ((fuseLoop canFuseCopy fuseCopy l).map ces) = lbox (l.map ces) := by
  induction hn : l.length generalizing l with
  | zero => rw [List.length_eq_zero_iff.1 hn, fuseLoop]
  | succ n ih =>
    match l with
    | [d] => rw [fuseLoop]
    | d0 :: d1 :: ds =>
      have h0 : 0 ≤ d0.dst.extent := h d0 (by simp)
      have h1 : 0 ≤ d1.dst.extent := h d1 (by simp)
      have hds : ∀ d ∈ ds, 0 ≤ d.dst.extent := fun d hd => h d (by simp [hd])
      rw [fuseLoop]
      split
      · rename_i hc
        simp only [canFuseCopy, Bool.and_eq_true, beq_iff_eq, canFuse_iff] at hc
        obtain ⟨⟨hce, hcs⟩, hcd⟩ := hc
        have := ih (fuseCopy d0 d1 :: ds) (by
          intro d hd
          rcases List.mem_cons.1 hd with rfl | hd
          · exact mul_nonneg h0 h1
          · exact hds d hd) (by simpa using hn)
        refine this.trans ?_
        rw [List.map_cons, List.map_cons, List.map_cons]
        have e1 : ces (fuseCopy d0 d1) =
            (d0.dst.extent.toNat * d1.dst.extent.toNat, (d0.src.stride, d0.dst.stride)) := by
          simp [ces, fuseCopy, fuse, Int.toNat_mul h0 h1]
        have e2 : ces d1 =
            (d1.dst.extent.toNat, d0.dst.extent.toNat • (d0.src.stride, d0.dst.stride)) := by
          simp only [ces, Prod.mk.injEq, true_and, Prod.smul_mk]
          rw [nsmul_eq_mul, nsmul_eq_mul, Int.natCast_toNat_eq_self.2 h0, ← hcs, ← hcd, hce]
          constructor <;> ring
        rw [e1, e2, ← lbox_fuse]
        rfl
      · have := ih (d1 :: ds) (by
          intro d hd
          exact h d (by simp at hd ⊢; tauto)) (by simpa using hn)
        rw [List.map_cons, List.map_cons]
        show lbox ((_, _) :: _) = lbox ((_, _) :: _)
        rw [lbox_cons, lbox_cons, this]

theorem lbox_eq_offsets2 (l : List CopyDims) :
    (lbox (l.map ces)).map (fun q => ((l.map cstart).sum, 0) + q) =
      (boxList (l.map CopyDims.dst)).map fun i =>
        (offsetOf (l.map CopyDims.src) i, offsetOf (l.map CopyDims.dst) i) := by
  induction l with
  | nil => simp [lbox, boxList, offsetOf]
  | cons d ds ih =>
    simp only [List.map_cons]
    rw [boxList]
    show (lbox ((d.dst.extent.toNat, (d.src.stride, d.dst.stride)) :: ds.map ces)).map _ = _
    rw [lbox_cons, List.map_flatMap, List.map_flatMap]
    have e : (boxList (ds.map CopyDims.dst)).flatMap (fun is =>
        ((ints d.dst.min d.dst.extent).map fun i => i :: is).map fun i =>
          (offsetOf (d.src :: ds.map CopyDims.src) i, offsetOf (d.dst :: ds.map CopyDims.dst) i)) =
      ((boxList (ds.map CopyDims.dst)).map fun i =>
        (offsetOf (ds.map CopyDims.src) i, offsetOf (ds.map CopyDims.dst) i)).flatMap fun q =>
        (List.range d.dst.extent.toNat).map fun x : Nat =>
          ((d.dst.min + (x : Int) - d.src.min) * d.src.stride + q.1,
           (d.dst.min + (x : Int) - d.dst.min) * d.dst.stride + q.2) := by
      rw [List.flatMap_map]
      simp only [ints, List.map_map, Function.comp_def, offsetOf]
    rw [e, ← ih, List.flatMap_map]
    congr 1
    ext1 q
    rw [List.map_map]
    apply List.map_congr_left
    intro i _
    ext
    · simp [cstart]; ring
    · simp

/-- `copy` visits the elements in the order of the dims sorted by the strides of the destination. -/
theorem copyForEachValue_sorted {src dst : Shape} (hl : src.length = dst.length) (h : NonNeg dst) (a b : Int) :
    ∃ p : List CopyDims, p.Perm (List.zipWith CopyDims.mk src dst) ∧
      p.Pairwise (fun c d => c.dst.stride ≤ d.dst.stride) ∧
      copyForEachValue src (some a) dst (some b) = (boxList (p.map CopyDims.dst)).map fun i =>
        (a + offsetOf (p.map CopyDims.src) i, b + offsetOf (p.map CopyDims.dst) i) := by
  have key : (optimizeCopyShapes src dst = (src, dst) ∧ List.length dst = 1) ∨
      optimizeCopyShapes src dst = dynamicOptimizeCopyShapes src dst := by
    unfold optimizeCopyShapes
    split
    · exact Or.inl ⟨rfl, rfl⟩
    · exact Or.inr rfl
  unfold copyForEachValue
  dsimp only
  rcases key with ⟨e, h1⟩ | e
  · refine ⟨List.zipWith CopyDims.mk src dst, List.Perm.refl _, ?_, ?_⟩
    · obtain ⟨d, rfl⟩ := List.length_eq_one_iff.1 h1
      obtain ⟨c, rfl⟩ := List.length_eq_one_iff.1 (hl.trans h1)
      simp
    · rw [e, zipWith_src hl, zipWith_dst hl, forEachValueInOrder2_eq _ _ _ hl rfl]
  · have hp := bubbleSort_perm copyDimsLt (List.zipWith CopyDims.mk src dst)
    have hnn : ∀ d ∈ bubbleSort copyDimsLt (List.zipWith CopyDims.mk src dst), 0 ≤ d.dst.extent := by
      intro d hd
      have hd := hp.mem_iff.1 hd
      have hm := List.mem_map_of_mem (f := CopyDims.dst) hd
      rw [zipWith_dst hl] at hm
      exact h _ hm
    refine ⟨_, hp, bubbleSort_sorted (f := fun c : CopyDims => c.dst.stride) (fun _ _ => rfl) _, ?_⟩
    rw [e]
    unfold dynamicOptimizeCopyShapes
    dsimp only
    generalize hq : padTo _ _ (fuseLoop canFuseCopy fuseCopy
      (bubbleSort copyDimsLt (List.zipWith CopyDims.mk src dst))) = q
    generalize bubbleSort copyDimsLt (List.zipWith CopyDims.mk src dst) = p at hnn hp hq
    have h1 : lbox (q.map ces) = lbox (p.map ces) := by
      rw [← hq]
      unfold padTo
      rw [List.map_append, List.map_replicate, show ces ⟨⟨0, 1, 0⟩, ⟨0, 1, 0⟩⟩ = (1, 0) from rfl, lbox_pad,
        fuseCopy_lbox p hnn]
    have h2 : (q.map cstart).sum = (p.map cstart).sum := by
      rw [← hq]
      unfold padTo
      rw [List.map_append, List.map_replicate, List.sum_append, (fuseCopy_mbox p hnn).2.2]
      rw [show cstart ⟨⟨0, 1, 0⟩, ⟨0, 1, 0⟩⟩ = 0 from rfl]
      simp only [List.sum_replicate, smul_zero, add_zero]
    rw [forEachValueInOrder2_eq _ _ _ (by simp) (by simp)]
    have h3 := lbox_eq_offsets2 q
    rw [h1, h2, lbox_eq_offsets2 p] at h3
    have h4 := congrArg (List.map fun o : Int × Int => (a + o.1, b + o.2)) h3
    rw [List.map_map, List.map_map] at h4
    exact h4.symm

/-! ### When the addresses increase -/

theorem mem_lbox_range {d : Dim} {q x : Int} :
    x ∈ ((List.range d.extent.toNat).map fun i => i • d.stride + q) ↔
      ∃ k : Int, 0 ≤ k ∧ k < d.extent ∧ x = k * d.stride + q := by
  simp only [List.mem_map, List.mem_range, nsmul_eq_mul]
  constructor
  · rintro ⟨i, hi, rfl⟩; exact ⟨i, by omega, by omega, rfl⟩
  · rintro ⟨k, h0, h1, rfl⟩; exact ⟨k.toNat, by omega, by rw [Int.toNat_of_nonneg h0]⟩

theorem lbox_ne_nil {s : List Dim} (h : Pos s) : lbox (s.map es) ≠ [] := by
  rw [lbox_eq_offsets]
  have := mem_boxList.2 (inBox_mins h)
  intro e
  rw [List.map_eq_nil_iff] at e
  rw [e] at this
  simp at this

theorem lbox_gaps (s : List Dim) (h : Pos s) (r : Int) (hr : 0 ≤ r) :
    (lbox (s.map es)).Pairwise (fun x y => x + r < y) ↔ Stacked r s := by
  induction s generalizing r with
  | nil => simp [lbox, Stacked]
  | cons d ds ih =>
    have hd : 0 < d.extent := h d (by simp)
    have hds : Pos ds := fun e he => h e (by simp [he])
    rw [List.map_cons]
    show (lbox ((d.extent.toNat, d.stride) :: ds.map es)).Pairwise _ ↔ _
    rw [lbox_cons, List.pairwise_flatMap, Stacked]
    constructor
    · rintro ⟨h1, h2⟩
      have hs : 1 < d.extent → r < d.stride := by
        intro he
        obtain ⟨q, hq⟩ := List.exists_mem_of_ne_nil _ (lbox_ne_nil hds)
        have h3 := h1 q hq
        rw [List.pairwise_map, List.pairwise_iff_getElem] at h3
        have := h3 0 1 (by simp; omega) (by simp; omega) (by omega)
        simp only [List.getElem_range, nsmul_eq_mul] at this
        push_cast at this
        linarith
      refine ⟨hs, (ih hds _ ?_).1 (h2.imp ?_)⟩
      · by_cases he : 1 < d.extent
        · have := hs he; nlinarith
        · have : d.extent = 1 := by omega
          rw [this]; omega
      · intro x y hxy
        have := hxy _ (mem_lbox_range.2 ⟨d.extent - 1, by omega, by omega, rfl⟩) _
          (mem_lbox_range.2 ⟨0, by omega, by omega, rfl⟩)
        linarith
    · rintro ⟨hs, h2⟩
      have hr' : 0 ≤ (d.extent - 1) * d.stride := by
        by_cases he : 1 < d.extent
        · have := hs he; nlinarith
        · have : d.extent = 1 := by omega
          rw [this]; omega
      have h3 := (ih hds _ (by omega)).2 h2
      refine ⟨fun q _ => ?_, h3.imp ?_⟩
      · rw [List.pairwise_map]
        refine (List.pairwise_lt_range (n := d.extent.toNat)).imp_of_mem ?_
        intro i j hi hj hij
        rw [List.mem_range] at hi hj
        have := hs (by omega)
        simp only [nsmul_eq_mul]
        have : (i : Int) + 1 ≤ j := by exact_mod_cast hij
        nlinarith
      · intro x y hxy u hu v hv
        obtain ⟨k, hk0, hk1, rfl⟩ := mem_lbox_range.1 hu
        obtain ⟨m, hm0, hm1, rfl⟩ := mem_lbox_range.1 hv
        by_cases he : 1 < d.extent
        · have h4 := hs he
          have : (k - m) * d.stride ≤ (d.extent - 1) * d.stride := by
            apply mul_le_mul_of_nonneg_right <;> omega
          linarith
        · have h5 : k = 0 := by omega
          have h6 : m = 0 := by omega
          subst h5 h6
          linarith

theorem Spec.Stacked.filter {r : Int} {s : List Dim} (h : Pos s) :
    Stacked r (s.filter fun d => 1 < d.extent) ↔ Stacked r s := by
  induction s generalizing r with
  | nil => rfl
  | cons d ds ih =>
    have hd : 0 < d.extent := h d (by simp)
    have hds : Pos ds := fun e he => h e (by simp [he])
    by_cases he : 1 < d.extent
    · rw [List.filter_cons_of_pos (by simpa using he), Stacked, Stacked, ih hds]
    · rw [List.filter_cons_of_neg (by simpa using he), Stacked, ih hds]
      have : d.extent = 1 := by omega
      simp [this]

theorem Spec.Stacked.pairwise {r : Int} {s : List Dim} (h : Stacked r s) (hr : 0 ≤ r)
    (he : ∀ d ∈ s, 1 < d.extent) : (∀ d ∈ s, r < d.stride) ∧ s.Pairwise fun a b => a.stride < b.stride := by
  induction s generalizing r with
  | nil => simp
  | cons d ds ih =>
    obtain ⟨h1, h2⟩ := h
    have h3 := h1 (he d (by simp))
    have h4 : d.stride ≤ (d.extent - 1) * d.stride := by
      have := he d (by simp); nlinarith
    obtain ⟨h5, h6⟩ := ih h2 (by omega) (fun e hm => he e (by simp [hm]))
    refine ⟨fun e hm => ?_, List.pairwise_cons.2 ⟨fun e hm => ?_, h6⟩⟩
    · rcases List.mem_cons.1 hm with rfl | hm
      · exact h3
      · have := h5 e hm; omega
    · have := h5 e hm; omega

theorem stackable_sorted {p s : List Dim} (hp : p.Perm s) (h : Pos s)
    (hs : p.Pairwise fun a b => a.stride ≤ b.stride) : Stackable s ↔ Stacked 0 p := by
  constructor
  · rintro ⟨q, hq, hst⟩
    have hpos : Pos p := fun d hd => h d (hp.mem_iff.1 hd)
    have hqos : Pos q := fun d hd => h d (hq.mem_iff.1 hd)
    rw [← Spec.Stacked.filter hpos]
    rw [← Spec.Stacked.filter hqos] at hst
    have h1 := (hst.pairwise le_rfl (fun d hd => by simpa using (List.mem_filter.1 hd).2)).2
    have hpq : (p.filter fun d => 1 < d.extent).Perm (q.filter fun d => 1 < d.extent) :=
      (hp.trans hq.symm).filter _
    have : (p.filter fun d => decide (1 < d.extent)) = q.filter fun d => decide (1 < d.extent) := by
      refine List.Perm.eq_of_pairwise (le := fun a b : Dim => a.stride ≤ b.stride) ?_
        (hs.sublist List.filter_sublist) (h1.imp (fun h => le_of_lt h)) hpq
      intro a b ha hb hab hba
      have ha' := hpq.mem_iff.1 ha
      by_contra hne
      have h2 : (q.filter fun d => decide (1 < d.extent)).Pairwise fun a b => a.stride ≠ b.stride :=
        h1.imp fun h => ne_of_lt h
      haveI : Std.Symm (fun a b : Dim => a.stride ≠ b.stride) := ⟨fun _ _ h => h.symm⟩
      exact h2.forall ha' hb hne (le_antisymm hab hba)
    rw [this]
    exact hst
  · intro hst
    exact ⟨p, hp, hst⟩

/-! ### Memory without gaps -/

theorem offset_step {s : List Dim} {i : Index} {m : Int} (hm : 0 < m)
    (h : ∀ d ∈ s, 1 < d.extent → m ≤ d.stride) (hi : InBox s i) : offsetOf s i = 0 ∨ m ≤ offsetOf s i := by
  induction s generalizing i with
  | nil => rw [inBox_nil] at hi; subst hi; exact Or.inl rfl
  | cons d ds ih =>
    obtain ⟨x, i, rfl, hx, hi⟩ := inBox_cons_iff.1 hi
    have h1 := ih (fun e he => h e (by simp [he])) hi
    have h2 := h d (by simp)
    rw [offsetOf]
    by_cases hxm : x = d.min
    · rw [hxm, sub_self, zero_mul, zero_add]; exact h1
    · have h3 := h2 (by omega)
      have : 1 ≤ x - d.min := by omega
      right
      rcases h1 with h1 | h1 <;> nlinarith

theorem stacked_of_cover (p : List Dim) (r : Int) (hr : 0 ≤ r) (hpos : Pos p) (hf : Forward p)
    (hs : p.Pairwise fun a b => a.stride ≤ b.stride)
    (h1 : ∀ i j u v, InBox p i → InBox p j → 0 ≤ u → u ≤ r → 0 ≤ v → v ≤ r →
      u + offsetOf p i = v + offsetOf p j → i = j)
    (h2 : ∀ j x, InBox p j → 0 ≤ x → x ≤ r + offsetOf p j →
      ∃ i u, InBox p i ∧ 0 ≤ u ∧ u ≤ r ∧ x = u + offsetOf p i) : Stacked r p := by
  induction p generalizing r with
  | nil => trivial
  | cons d ds ih =>
    have hd : 0 < d.extent := hpos d (by simp)
    have hds : Pos ds := fun e he => hpos e (by simp [he])
    have hfs : Forward ds := fun e he => hf e (by simp [he])
    obtain ⟨hs1, hs2⟩ := List.pairwise_cons.1 hs
    have hmin : InBox ds (ds.map Dim.min) := inBox_mins hds
    have hoff : offsetOf ds (ds.map Dim.min) = 0 := offsetOf_mins ds
    by_cases he : 1 < d.extent
    · have hs0 : 0 < d.stride := hf d (by simp) he
      have hb0 : InBox (d :: ds) (d.min :: ds.map Dim.min) :=
        inBox_cons_iff.2 ⟨_, _, rfl, ⟨le_rfl, by omega⟩, hmin⟩
      have hb1 : InBox (d :: ds) ((d.min + 1) :: ds.map Dim.min) :=
        inBox_cons_iff.2 ⟨_, _, rfl, ⟨by omega, by omega⟩, hmin⟩
      have ho0 : offsetOf (d :: ds) (d.min :: ds.map Dim.min) = 0 := by rw [offsetOf, hoff]; ring
      have ho1 : offsetOf (d :: ds) ((d.min + 1) :: ds.map Dim.min) = d.stride := by rw [offsetOf, hoff]; ring
      have hlt : r < d.stride := by
        by_contra hc
        have := h1 _ _ d.stride 0 hb0 hb1 (by omega) (by omega) (by omega) (by omega) (by rw [ho0, ho1]; ring)
        simp at this
      have heq : d.stride = r + 1 := by
        obtain ⟨i, u, hi, hu0, hu1, hx⟩ := h2 _ (r + 1) hb1 (by omega) (by rw [ho1]; omega)
        have := offset_step (m := d.stride) hs0 (fun e hm h => by
          rcases List.mem_cons.1 hm with rfl | hm
          · exact le_rfl
          · exact hs1 e hm) hi
        omega
      refine ⟨fun _ => hlt, ih _ ?_ hds hfs hs2 ?_ ?_⟩
      · nlinarith
      · intro i j u v hi hj hu0 hu1 hv0 hv1 huv
        have key : ∀ u, 0 ≤ u → u ≤ r + (d.extent - 1) * d.stride →
            0 ≤ u / d.stride ∧ u / d.stride < d.extent := by
          intro u h0 h1
          refine ⟨Int.ediv_nonneg h0 (le_of_lt hs0), Int.ediv_lt_of_lt_mul hs0 ?_⟩
          nlinarith
        have hu := key u hu0 hu1
        have hv := key v hv0 hv1
        have e1 := Int.mul_ediv_add_emod u d.stride
        have e2 := Int.mul_ediv_add_emod v d.stride
        have m1 := Int.emod_nonneg u (ne_of_gt hs0)
        have m2 := Int.emod_nonneg v (ne_of_gt hs0)
        have m3 := Int.emod_lt_of_pos u hs0
        have m4 := Int.emod_lt_of_pos v hs0
        have := h1 ((d.min + u / d.stride) :: i) ((d.min + v / d.stride) :: j) (u % d.stride) (v % d.stride)
          (inBox_cons_iff.2 ⟨_, _, rfl, ⟨by omega, by omega⟩, hi⟩)
          (inBox_cons_iff.2 ⟨_, _, rfl, ⟨by omega, by omega⟩, hj⟩) m1 (by omega) m2 (by omega) (by
            rw [offsetOf, offsetOf]
            linarith)
        exact (List.cons.inj this).2
      · intro j x hj hx0 hx1
        obtain ⟨i, u, hi, hu0, hu1, hx⟩ := h2 ((d.min + (d.extent - 1)) :: j) x
          (inBox_cons_iff.2 ⟨_, _, rfl, ⟨by omega, by omega⟩, hj⟩) hx0 (by rw [offsetOf]; linarith)
        obtain ⟨k, i, rfl, hk, hi⟩ := inBox_cons_iff.1 hi
        rw [offsetOf] at hx
        refine ⟨i, u + (k - d.min) * d.stride, hi, ?_, ?_, by linarith⟩
        · have : 0 ≤ k - d.min := by omega
          have := mul_nonneg this (le_of_lt hs0)
          omega
        · have : (k - d.min) * d.stride ≤ (d.extent - 1) * d.stride := by
            apply mul_le_mul_of_nonneg_right <;> omega
          omega
    · have h3 : d.extent = 1 := by omega
      refine ⟨fun h => absurd h he, ?_⟩
      rw [h3, sub_self, zero_mul, add_zero]
      refine ih r hr hds hfs hs2 ?_ ?_
      · intro i j u v hi hj hu0 hu1 hv0 hv1 huv
        have := h1 (d.min :: i) (d.min :: j) u v
          (inBox_cons_iff.2 ⟨_, _, rfl, ⟨by omega, by omega⟩, hi⟩)
          (inBox_cons_iff.2 ⟨_, _, rfl, ⟨by omega, by omega⟩, hj⟩) hu0 hu1 hv0 hv1 (by
            rw [offsetOf, offsetOf]; linarith)
        exact (List.cons.inj this).2
      · intro j x hj hx0 hx1
        obtain ⟨i, u, hi, hu0, hu1, hx⟩ := h2 (d.min :: j) x
          (inBox_cons_iff.2 ⟨_, _, rfl, ⟨by omega, by omega⟩, hj⟩) hx0 (by rw [offsetOf]; linarith)
        obtain ⟨k, i, rfl, hk, hi'⟩ := inBox_cons_iff.1 hi
        have h4 : k - d.min = 0 := by omega
        rw [offsetOf, h4] at hx
        exact ⟨i, u, hi', hu0, hu1, by linarith⟩

/-- An index and its rearrangement. -/
theorem perm_index {p s : List Dim} (hp : p.Perm s) :
    ∃ g : Index → Index, (∀ i, InBox s i → InBox p (g i) ∧ offsetOf p (g i) = offsetOf s i) ∧
      (∀ i j, InBox s i → InBox s j → g i = g j → i = j) ∧
      ∀ j, InBox p j → ∃ i, InBox s i ∧ g i = j := by
  induction hp with
  | nil => exact ⟨id, fun i hi => ⟨hi, rfl⟩, fun _ _ _ _ h => h, fun j hj => ⟨j, hj, rfl⟩⟩
  | cons d _ ih =>
    obtain ⟨g, g1, g2, g3⟩ := ih
    refine ⟨fun i => match i with | [] => [] | x :: i => x :: g i, ?_, ?_, ?_⟩
    · intro i hi
      obtain ⟨x, i, rfl, hx, hi⟩ := inBox_cons_iff.1 hi
      refine ⟨inBox_cons_iff.2 ⟨_, _, rfl, hx, (g1 i hi).1⟩, ?_⟩
      simp only [offsetOf, (g1 i hi).2]
    · intro i j hi hj h
      obtain ⟨x, i, rfl, hx, hi⟩ := inBox_cons_iff.1 hi
      obtain ⟨y, j, rfl, hy, hj⟩ := inBox_cons_iff.1 hj
      simp only [List.cons.injEq] at h
      rw [h.1, g2 i j hi hj h.2]
    · intro j hj
      obtain ⟨x, j, rfl, hx, hj⟩ := inBox_cons_iff.1 hj
      obtain ⟨i, hi, rfl⟩ := g3 j hj
      exact ⟨x :: i, inBox_cons_iff.2 ⟨_, _, rfl, hx, hi⟩, rfl⟩
  | swap d e l =>
    refine ⟨fun i => match i with | x :: y :: i => y :: x :: i | i => i, ?_, ?_, ?_⟩
    · intro i hi
      obtain ⟨x, i, rfl, hx, hi⟩ := inBox_cons_iff.1 hi
      obtain ⟨y, i, rfl, hy, hi⟩ := inBox_cons_iff.1 hi
      refine ⟨inBox_cons_iff.2 ⟨_, _, rfl, hy, inBox_cons_iff.2 ⟨_, _, rfl, hx, hi⟩⟩, ?_⟩
      simp only [offsetOf]; ring
    · intro i j hi hj h
      obtain ⟨x, i, rfl, hx, hi⟩ := inBox_cons_iff.1 hi
      obtain ⟨y, i, rfl, hy, hi⟩ := inBox_cons_iff.1 hi
      obtain ⟨x', j, rfl, hx', hj⟩ := inBox_cons_iff.1 hj
      obtain ⟨y', j, rfl, hy', hj⟩ := inBox_cons_iff.1 hj
      simp only [List.cons.injEq] at h
      rw [h.1, h.2.1, h.2.2]
    · intro j hj
      obtain ⟨x, j, rfl, hx, hj⟩ := inBox_cons_iff.1 hj
      obtain ⟨y, j, rfl, hy, hj⟩ := inBox_cons_iff.1 hj
      exact ⟨y :: x :: j, inBox_cons_iff.2 ⟨_, _, rfl, hy, inBox_cons_iff.2 ⟨_, _, rfl, hx, hj⟩⟩, rfl⟩
  | trans _ _ ih1 ih2 =>
    obtain ⟨f, f1, f2, f3⟩ := ih1
    obtain ⟨g, g1, g2, g3⟩ := ih2
    refine ⟨f ∘ g, fun i hi => ?_, fun i j hi hj h => ?_, fun j hj => ?_⟩
    · obtain ⟨h1, h2⟩ := g1 i hi
      exact ⟨(f1 _ h1).1, (f1 _ h1).2.trans h2⟩
    · exact g2 i j hi hj (f2 _ _ (g1 i hi).1 (g1 j hj).1 h)
    · obtain ⟨k, hk, rfl⟩ := f3 j hj
      obtain ⟨i, hi, rfl⟩ := g3 k hk
      exact ⟨i, hi, rfl⟩

theorem stackable_of_gapless {s : List Dim} {n : Int} (hpos : Pos s) (hf : Forward s) (hi : Injective s)
    (hg : Gapless s n) : Stackable s := by
  have hp : (bubbleSort dimLt s).Perm s := bubbleSort_perm _ _
  have hs : (bubbleSort dimLt s).Pairwise fun a b => a.stride ≤ b.stride := bubbleSort_sorted (fun _ _ => rfl) _
  generalize bubbleSort dimLt s = p at hp hs
  obtain ⟨g, g1, g2, g3⟩ := perm_index hp
  refine ⟨p, hp, stacked_of_cover p 0 le_rfl (fun d hd => hpos d (hp.mem_iff.1 hd))
    (fun d hd => hf d (hp.mem_iff.1 hd)) hs ?_ ?_⟩
  · intro i j u v hbi hbj hu0 hu1 hv0 hv1 h
    obtain ⟨i, hi', rfl⟩ := g3 i hbi
    obtain ⟨j, hj', rfl⟩ := g3 j hbj
    rw [(g1 i hi').2, (g1 j hj').2] at h
    rw [hi i j hi' hj' (by omega)]
  · intro j x hbj hx0 hx1
    obtain ⟨j, hj', rfl⟩ := g3 j hbj
    rw [(g1 j hj').2] at hx1
    have := (hg _).1 ⟨j, hj', rfl⟩
    obtain ⟨i, hi', ho⟩ := (hg x).2 ⟨hx0, by omega⟩
    exact ⟨g i, 0, (g1 i hi').1, le_rfl, le_rfl, by rw [(g1 i hi').2, ho]; ring⟩

end Nda
