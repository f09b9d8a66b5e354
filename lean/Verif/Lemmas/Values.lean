import Verif.Lemmas.Flat
import Mathlib.Data.Multiset.Bind
import Mathlib.Data.Multiset.Range
import Mathlib.Algebra.Group.Prod
import Mathlib.Algebra.Module.NatInt
import Mathlib.Algebra.Group.Nat.Defs
import Mathlib.Tactic.Abel

namespace Nda
open Spec

/-- The pointer packs that occur form a group and `advance` is addition. -/
class LawfulPtrPack (P : Type) [AddCommGroup P] [PtrPack P] : Prop where
  advance_eq : ∀ p s : P, PtrPack.advance p s = p + s
  inc_eq : ∀ p s : P, PtrPack.allOne s = true → PtrPack.inc p = p + s

instance : LawfulPtrPack Int where
  advance_eq _ _ := rfl
  inc_eq p s h := by
    simp only [PtrPack.allOne, all_iff, List.mem_singleton, forall_eq, beq_iff_eq] at h
    rw [h]; rfl

instance : LawfulPtrPack (Int × Int) where
  advance_eq _ _ := rfl
  inc_eq p s h := by
    simp only [PtrPack.allOne, all_iff, List.mem_cons, List.not_mem_nil, or_false,
      forall_eq_or_imp, forall_eq, beq_iff_eq] at h
    ext <;> simp [PtrPack.inc, h.1, h.2]

section
variable {P : Type} [AddCommGroup P]

/-- Multiset of the offsets `Σ i_k • s_k` with `i_k < n_k`. -/
def mbox : List (Nat × P) → Multiset P
  | [] => {0}
  | (n, s) :: ds => (Multiset.range n).bind fun i => (mbox ds).map fun q => i • s + q

theorem mbox_cons (n : Nat) (s : P) (ds : List (Nat × P)) :
    mbox ((n, s) :: ds) = (Multiset.range n).bind fun i => (mbox ds).map fun q => i • s + q := rfl

theorem mbox_perm {l l' : List (Nat × P)} (h : l.Perm l') : mbox l = mbox l' := by
  induction h with
  | nil => rfl
  | cons x _ ih => rw [mbox, mbox, ih]
  | swap x y l =>
    obtain ⟨n, s⟩ := x
    obtain ⟨m, t⟩ := y
    simp only [mbox_cons, Multiset.map_bind, Multiset.map_map, Function.comp_def]
    rw [Multiset.bind_bind]
    congr 1; ext1 i; congr 1; ext1 j; congr 1; ext1 q
    abel
  | trans _ _ ih1 ih2 => exact ih1.trans ih2

theorem range_mul_bind {β : Type} (n m : Nat) (f : Nat → Multiset β) :
    (Multiset.range (n * m)).bind f =
      (Multiset.range n).bind fun i => (Multiset.range m).bind fun j => f (i + j * n) := by
  rw [Multiset.bind_bind]
  induction m with
  | zero => simp
  | succ m ih =>
    rw [Nat.mul_succ, Multiset.range_add, Multiset.add_bind, ih, Multiset.range_succ,
      Multiset.cons_bind, add_comm]
    congr 1
    rw [Multiset.bind_map]
    congr 1; ext1 i; congr 1; ring

theorem mbox_fuse (n m : Nat) (s : P) (ds : List (Nat × P)) :
    mbox ((n, s) :: (m, n • s) :: ds) = mbox ((n * m, s) :: ds) := by
  simp only [mbox_cons, Multiset.map_bind, Multiset.map_map, Function.comp_def]
  rw [range_mul_bind]
  congr 1; ext1 i; congr 1; ext1 j; congr 1; ext1 q
  rw [add_smul, mul_smul, add_assoc]

theorem mbox_pad_cons (ds : List (Nat × P)) : mbox ((1, (0 : P)) :: ds) = mbox ds := by
  rw [mbox_cons]
  simp [Multiset.range_succ]

theorem mbox_pad (l : List (Nat × P)) (k : Nat) :
    mbox (l ++ List.replicate k (1, (0 : P))) = mbox l := by
  rw [mbox_perm List.perm_append_comm]
  induction k with
  | zero => rfl
  | succ k ih => rw [List.replicate_succ, List.cons_append, mbox_pad_cons, ih]

variable [PtrPack P] [LawfulPtrPack P]

theorem denseLoop_eq {st : P} (h1 : PtrPack.allOne st = true) (n : Nat) (p : P) (e : Int)
    (he : (e - PtrPack.ptr0 p).toNat = n) :
    denseLoop e p = (List.range n).map fun i => p + i • st := by
  induction n generalizing p with
  | zero => rw [denseLoop, if_neg (by omega)]; rfl
  | succ n ih =>
    rw [denseLoop, if_pos (by omega), ih]
    · rw [List.range_succ_eq_map, List.map_cons, List.map_map, LawfulPtrPack.inc_eq p st h1]
      congr 1
      · simp
      · apply List.map_congr_left
        intro i _
        simp only [Function.comp_def, Nat.succ_eq_add_one, add_smul, one_smul]
        abel
    · rw [PtrPack.ptr0_inc]; omega

theorem strideLoop_eq (body : P → List P) (st : P) (n : Nat) (p : P) :
    strideLoop body st n p = (List.range n).flatMap fun i => body (p + i • st) := by
  induction n generalizing p with
  | zero => rfl
  | succ n ih =>
    rw [strideLoop, ih, List.range_succ_eq_map, List.flatMap_cons, List.flatMap_map]
    congr 1
    · simp
    · congr 1; ext1 i
      rw [LawfulPtrPack.advance_eq, Nat.succ_eq_add_one, add_smul, one_smul, add_assoc,
        add_comm st]

theorem valueLoop_eq (dims : List (Int × P)) (p : P) :
    (valueLoop dims p : Multiset P) =
      (mbox (dims.map fun d => (d.1.toNat, d.2))).map fun q => p + q := by
  induction dims generalizing p with
  | nil => simp [valueLoop, mbox]
  | cons d rest ih =>
    obtain ⟨e, st⟩ := d
    have key : ∀ q, (strideLoop (valueLoop rest) st e.toNat q : Multiset P) =
        (mbox (((e, st) :: rest).map fun d => (d.1.toNat, d.2))).map fun r => q + r := by
      intro q
      rw [strideLoop_eq, ← Multiset.coe_bind, List.map_cons, mbox_cons, Multiset.map_bind]
      simp only [ih, Multiset.map_map, Function.comp_def, ← add_assoc]
      rfl
    cases rest with
    | cons d2 rest => exact key p
    | nil =>
      rw [valueLoop]
      split
      · rw [denseLoop_eq (by assumption) e.toNat p _ (by omega)]
        simp only [List.map_cons, List.map_nil, mbox_cons, mbox, Multiset.map_singleton,
          Multiset.map_bind, add_zero]
        rw [Multiset.bind_singleton]
        rfl
      · exact key p
end

/-! ### Bubble sort -/

theorem bubbleInner_perm {α : Type} (lt : α → α → Bool) (x : α) (l : List α) :
    ((bubbleInner lt x l).1 :: (bubbleInner lt x l).2).Perm (x :: l) := by
  induction l generalizing x with
  | nil => exact List.Perm.refl _
  | cons y ys ih =>
    rw [bubbleInner]
    split
    · have := ih y
      exact (List.Perm.swap _ _ _).trans (this.cons x)
    · have := ih x
      exact ((List.Perm.swap _ _ _).trans (this.cons y)).trans (List.Perm.swap _ _ _)

theorem bubbleSort_perm {α : Type} (lt : α → α → Bool) (l : List α) :
    (bubbleSort lt l).Perm l := by
  induction hn : l.length generalizing l with
  | zero => cases l with
    | nil => rw [bubbleSort]
    | cons => simp at hn
  | succ n ih =>
    cases l with
    | nil => simp at hn
    | cons x xs =>
      rw [bubbleSort]
      have := ih (bubbleInner lt x xs).2 (by rw [bubbleInner_length]; simpa using hn)
      exact (this.cons _).trans (bubbleInner_perm lt x xs)

theorem fuseLoop_length {α : Type} (can : α → α → Bool) (f : α → α → α) (l : List α) :
    (fuseLoop can f l).length ≤ l.length := by
  induction hn : l.length generalizing l with
  | zero => cases l with
    | nil => rw [fuseLoop]; simp
    | cons => simp at hn
  | succ n ih =>
    match l with
    | [] => simp at hn
    | [d] => rw [fuseLoop]; simp
    | d0 :: d1 :: ds =>
      rw [fuseLoop]
      split
      · have := ih (f d0 d1 :: ds) (by simpa using hn)
        omega
      · have := ih (d1 :: ds) (by simpa using hn)
        simp; omega

/-! ### The optimised shape visits the same offsets -/

/-- extent and stride of a dim -/
def es (d : Dim) : Nat × Int := (d.extent.toNat, d.stride)

theorem canFuse_iff (a b : Dim) : canFuse a b = true ↔ a.stride * a.extent = b.stride := by
  simp [canFuse]

theorem fuseLoop_mbox (l : List Dim) (h : NonNeg l) :
    NonNeg (fuseLoop canFuse fuse l) ∧
    mbox ((fuseLoop canFuse fuse l).map es) = mbox (l.map es) := by
  induction hn : l.length generalizing l with
  | zero => cases l with
    | nil => rw [fuseLoop]; exact ⟨h, rfl⟩
    | cons => simp at hn
  | succ n ih =>
    match l with
    | [] => simp at hn
    | [d] => rw [fuseLoop]; exact ⟨h, rfl⟩
    | d0 :: d1 :: ds =>
      have h' := h
      rw [nonNeg_cons, nonNeg_cons] at h'
      obtain ⟨h0, h1, hds⟩ := h'
      rw [fuseLoop]
      split
      · rename_i hc
        rw [canFuse_iff] at hc
        have := ih (fuse d0 d1 :: ds) (by
          rw [nonNeg_cons]; exact ⟨mul_nonneg h0 h1, hds⟩) (by simpa using hn)
        refine ⟨this.1, this.2.trans ?_⟩
        rw [List.map_cons, List.map_cons, List.map_cons]
        have e1 : es (fuse d0 d1) = (d0.extent.toNat * d1.extent.toNat, d0.stride) := by
          simp [es, fuse, Int.toNat_mul h0 h1]
        have e2 : es d1 = (d1.extent.toNat, d0.extent.toNat • d0.stride) := by
          simp only [es, Prod.mk.injEq, true_and]
          rw [nsmul_eq_mul, Int.natCast_toNat_eq_self.2 h0, ← hc, mul_comm]
        rw [e1, e2, ← mbox_fuse]
        rfl
      · have := ih (d1 :: ds) (by rw [nonNeg_cons]; exact ⟨h1, hds⟩) (by simpa using hn)
        refine ⟨by rw [nonNeg_cons]; exact ⟨h0, this.1⟩, ?_⟩
        rw [List.map_cons, List.map_cons]
        show mbox ((_, _) :: _) = mbox ((_, _) :: _)
        rw [mbox_cons, mbox_cons, this.2]

theorem bubbleSort_nonNeg {lt : Dim → Dim → Bool} {l : List Dim} (h : NonNeg l) :
    NonNeg (bubbleSort lt l) := fun d hd => h d ((bubbleSort_perm lt l).mem_iff.1 hd)

theorem optimizeShape_mbox (s : Shape) (h : NonNeg s) :
    mbox ((optimizeShape s).map es) = mbox (s.map es) := by
  have key : mbox ((dynamicOptimizeShape s).map es) = mbox (s.map es) := by
    unfold dynamicOptimizeShape padTo
    rw [List.map_append, List.map_replicate]
    rw [show es ⟨0, 1, 0⟩ = (1, 0) from rfl, mbox_pad, (fuseLoop_mbox _ (bubbleSort_nonNeg h)).2]
    exact mbox_perm ((bubbleSort_perm _ _).map _)
  unfold optimizeShape
  split
  · rfl
  · exact key

theorem mbox_eq_offsets (s : List Dim) :
    mbox (s.map es) = ((boxList s).map (offsetOf s) : Multiset Int) := by
  induction s with
  | nil => simp [mbox, boxList, offsetOf]
  | cons d ds ih =>
    rw [List.map_cons, boxList]
    show mbox ((d.extent.toNat, d.stride) :: ds.map es) = _
    rw [mbox_cons, ih, List.map_flatMap, ← Multiset.coe_bind]
    simp only [ints, List.map_map, Function.comp_def, offsetOf]
    have : ∀ m : Multiset Int, (Multiset.range d.extent.toNat).bind (fun i =>
        m.map fun q => i • d.stride + q) = m.bind fun q =>
          (Multiset.range d.extent.toNat).map fun i => i • d.stride + q := by
      intro m
      rw [Multiset.bind_map_comm]
    rw [this, ← Multiset.map_coe, Multiset.bind_map]
    congr 1; ext1 is
    show _ = (((List.range d.extent.toNat).map _ : List Int) : Multiset Int)
    rw [← Multiset.map_coe]
    congr 1; ext1 i
    rw [nsmul_eq_mul]; ring

theorem reverse_mbox {P : Type} [AddCommGroup P] (l : List (Nat × P)) :
    mbox l.reverse = mbox l := mbox_perm (List.reverse_perm l)

theorem forEachValueInOrder_multiset (s : Shape) (b : Int) :
    (s.forEachValueInOrder (some b) : Multiset Int) = (mbox (s.map es)).map fun q => b + q := by
  unfold Shape.forEachValueInOrder
  rw [valueLoop_eq, List.map_reverse, reverse_mbox, List.map_map]
  rfl

theorem forEachValueInOrder_perm (s : Shape) (b : Int) :
    (s.forEachValueInOrder (some b)).Perm ((boxList s).map fun i => b + offsetOf s i) := by
  rw [← Multiset.coe_eq_coe, forEachValueInOrder_multiset, mbox_eq_offsets, ← Multiset.map_coe,
    Multiset.map_map]
  rfl

theorem forEachValue_perm (s : Shape) (h : NonNeg s) (b : Int) :
    (s.forEachValue (some b)).Perm ((boxList s).map fun i => b + offsetOf s i) := by
  unfold Shape.forEachValue
  rw [← Multiset.coe_eq_coe, forEachValueInOrder_multiset, optimizeShape_mbox s h,
    mbox_eq_offsets, ← Multiset.map_coe, Multiset.map_map]
  rfl

/-! ### Copies -/

/-- loop data of a pair of dims -/
def ces (d : CopyDims) : Nat × (Int × Int) := (d.dst.extent.toNat, (d.src.stride, d.dst.stride))

/-- contribution of a pair of dims to the start of the source pointer -/
def cstart (d : CopyDims) : Int := (d.dst.min - d.src.min) * d.src.stride

theorem fuseCopy_mbox (l : List CopyDims) (h : ∀ d ∈ l, 0 ≤ d.dst.extent) :
    (∀ d ∈ fuseLoop canFuseCopy fuseCopy l, 0 ≤ d.dst.extent) ∧
    mbox ((fuseLoop canFuseCopy fuseCopy l).map ces) = mbox (l.map ces) ∧
    ((fuseLoop canFuseCopy fuseCopy l).map cstart).sum = (l.map cstart).sum := by
  induction hn : l.length generalizing l with
  | zero => cases l with
    | nil => rw [fuseLoop]; exact ⟨h, rfl, rfl⟩
    | cons => simp at hn
  | succ n ih =>
    match l with
    | [] => simp at hn
    | [d] => rw [fuseLoop]; exact ⟨h, rfl, rfl⟩
    | d0 :: d1 :: ds =>
      have h0 : 0 ≤ d0.dst.extent := h d0 (by simp)
      have h1 : 0 ≤ d1.dst.extent := h d1 (by simp)
      have hds : ∀ d ∈ ds, 0 ≤ d.dst.extent := fun d hd => h d (by simp [hd])
      rw [fuseLoop]
      split
      · rename_i hc
        simp only [canFuseCopy, Bool.and_eq_true, beq_iff_eq, canFuse_iff] at hc
        obtain ⟨⟨hce, hcs⟩, hcd⟩ := hc
        have := ih (fuseCopy d0 d1 :: ds) (by
          intro d hd
          rcases List.mem_cons.1 hd with rfl | hd
          · exact mul_nonneg h0 h1
          · exact hds d hd) (by simpa using hn)
        refine ⟨this.1, this.2.1.trans ?_, this.2.2.trans ?_⟩
        · rw [List.map_cons, List.map_cons, List.map_cons]
          have e1 : ces (fuseCopy d0 d1) =
              (d0.dst.extent.toNat * d1.dst.extent.toNat, (d0.src.stride, d0.dst.stride)) := by
            simp [ces, fuseCopy, fuse, Int.toNat_mul h0 h1]
          have e2 : ces d1 =
              (d1.dst.extent.toNat, d0.dst.extent.toNat • (d0.src.stride, d0.dst.stride)) := by
            simp only [ces, Prod.mk.injEq, true_and, Prod.smul_mk]
            rw [nsmul_eq_mul, nsmul_eq_mul, Int.natCast_toNat_eq_self.2 h0, ← hcs, ← hcd, hce]
            constructor <;> ring
          rw [e1, e2, ← mbox_fuse]
          rfl
        · simp only [List.map_cons, List.sum_cons]
          rw [← add_assoc]
          congr 1
          simp only [cstart, fuseCopy, fuse]
          rw [← hcs, hce]
          ring
      · have := ih (d1 :: ds) (by
          intro d hd
          exact h d (by simp at hd ⊢; tauto)) (by simpa using hn)
        refine ⟨?_, ?_, ?_⟩
        · intro d hd
          rcases List.mem_cons.1 hd with rfl | hd
          · exact h0
          · exact this.1 d hd
        · rw [List.map_cons, List.map_cons]
          show mbox ((_, _) :: _) = mbox ((_, _) :: _)
          rw [mbox_cons, mbox_cons, this.2.1]
        · simp only [List.map_cons, List.sum_cons] at this ⊢
          rw [this.2.2]

theorem copy_offset_mins (l : List CopyDims) :
    offsetOf (l.map CopyDims.src) ((l.map CopyDims.dst).map Dim.min) = (l.map cstart).sum := by
  induction l with
  | nil => rfl
  | cons d l ih => simp only [List.map_cons, offsetOf, ih, cstart, List.sum_cons]

theorem zip_ces (l : List CopyDims) :
    (List.zip (Shape.extents (l.map CopyDims.dst))
      (List.zip (Shape.strides (l.map CopyDims.src)) (Shape.strides (l.map CopyDims.dst)))).map
        (fun d => (d.1.toNat, d.2)) = l.map ces := by
  induction l with
  | nil => rfl
  | cons d l ih =>
    simp only [Shape.extents, Shape.strides, List.map_cons, List.zip_cons_cons] at ih ⊢
    rw [ih]; rfl

theorem forEachValueInOrder2_multiset (l : List CopyDims) (a b : Int) :
    (Shape.forEachValueInOrder2 (l.map CopyDims.dst) (l.map CopyDims.src) (some a)
      (l.map CopyDims.dst) (some b) : Multiset (Int × Int)) =
    (mbox (l.map ces)).map fun q => (a + (l.map cstart).sum, b) + q := by
  unfold Shape.forEachValueInOrder2
  simp only
  rw [valueLoop_eq, List.map_reverse, reverse_mbox, zip_ces, flatOffset_eq, flatOffset_eq]
  simp only [Shape.mins]
  rw [copy_offset_mins, offsetOf_mins, add_zero]

theorem zipWith_src {src dst : Shape} (hl : src.length = dst.length) :
    (List.zipWith CopyDims.mk src dst).map CopyDims.src = src := by
  induction src generalizing dst with
  | nil => simp
  | cons d ds ih =>
    cases dst with
    | nil => simp at hl
    | cons e es => simp [ih (by simpa using hl)]

theorem zipWith_dst {src dst : Shape} (hl : src.length = dst.length) :
    (List.zipWith CopyDims.mk src dst).map CopyDims.dst = dst := by
  induction src generalizing dst with
  | nil => cases dst with
    | nil => rfl
    | cons => simp at hl
  | cons d ds ih =>
    cases dst with
    | nil => simp at hl
    | cons e es => simp [ih (by simpa using hl)]

theorem optimizeCopyShapes_spec (src dst : Shape) (hl : src.length = dst.length)
    (h : NonNeg dst) :
    ∃ l : List CopyDims, optimizeCopyShapes src dst = (l.map CopyDims.src, l.map CopyDims.dst) ∧
      mbox (l.map ces) = mbox ((List.zipWith CopyDims.mk src dst).map ces) ∧
      (l.map cstart).sum = ((List.zipWith CopyDims.mk src dst).map cstart).sum := by
  have key : ∃ l : List CopyDims,
      dynamicOptimizeCopyShapes src dst = (l.map CopyDims.src, l.map CopyDims.dst) ∧
      mbox (l.map ces) = mbox ((List.zipWith CopyDims.mk src dst).map ces) ∧
      (l.map cstart).sum = ((List.zipWith CopyDims.mk src dst).map cstart).sum := by
    refine ⟨_, rfl, ?_, ?_⟩
    all_goals
      have hp := bubbleSort_perm copyDimsLt (List.zipWith CopyDims.mk src dst)
      have hf := fuseCopy_mbox (bubbleSort copyDimsLt (List.zipWith CopyDims.mk src dst)) (by
        intro d hd
        have hd := hp.mem_iff.1 hd
        have hm := List.mem_map_of_mem (f := CopyDims.dst) hd
        rw [zipWith_dst hl] at hm
        exact h _ hm)
    · unfold padTo
      rw [List.map_append, List.map_replicate]
      rw [show ces ⟨⟨0, 1, 0⟩, ⟨0, 1, 0⟩⟩ = (1, 0) from rfl, mbox_pad, hf.2.1]
      exact mbox_perm (hp.map _)
    · unfold padTo
      rw [List.map_append, List.map_replicate, List.sum_append, hf.2.2]
      rw [show cstart ⟨⟨0, 1, 0⟩, ⟨0, 1, 0⟩⟩ = 0 from rfl]
      simp only [List.sum_replicate, smul_zero, add_zero]
      exact (hp.map _).sum_eq
  unfold optimizeCopyShapes
  split
  · exact ⟨_, rfl, rfl, rfl⟩
  · exact key

theorem mbox_eq_offsets2 (l : List CopyDims) :
    (mbox (l.map ces)).map (fun q => ((l.map cstart).sum, 0) + q) =
      ((boxList (l.map CopyDims.dst)).map fun i =>
        (offsetOf (l.map CopyDims.src) i, offsetOf (l.map CopyDims.dst) i) :
          Multiset (Int × Int)) := by
  induction l with
  | nil => simp [mbox, boxList, offsetOf]
  | cons d ds ih =>
    simp only [List.map_cons]
    rw [boxList]
    show (mbox ((d.dst.extent.toNat, (d.src.stride, d.dst.stride)) :: ds.map ces)).map _ = _
    rw [mbox_cons, List.map_flatMap, ← Multiset.coe_bind, Multiset.map_bind]
    simp only [ints, List.map_map, Function.comp_def, offsetOf, Multiset.map_map]
    have e : (boxList (ds.map CopyDims.dst) : Multiset Index).bind (fun is =>
        ((List.range d.dst.extent.toNat).map fun x : Nat =>
          ((d.dst.min + (x : Int) - d.src.min) * d.src.stride + offsetOf (ds.map CopyDims.src) is,
           (d.dst.min + (x : Int) - d.dst.min) * d.dst.stride + offsetOf (ds.map CopyDims.dst) is)
            : Multiset (Int × Int))) =
      ((boxList (ds.map CopyDims.dst)).map fun i =>
        (offsetOf (ds.map CopyDims.src) i, offsetOf (ds.map CopyDims.dst) i) :
          Multiset (Int × Int)).bind fun q =>
        (Multiset.range d.dst.extent.toNat).map fun x : Nat =>
          ((d.dst.min + (x : Int) - d.src.min) * d.src.stride + q.1,
           (d.dst.min + (x : Int) - d.dst.min) * d.dst.stride + q.2) := by
      rw [← Multiset.map_coe, Multiset.bind_map]
      rfl
    rw [e, ← ih, Multiset.bind_map, Multiset.bind_map_comm]
    congr 1; ext1 q
    congr 1; ext1 i
    ext
    · simp [cstart]; ring
    · simp

/-- The two-array loop visits, for each index of `dst` once, the two elements at that index. -/
theorem copyForEachValue_perm {src dst : Shape} (hl : src.length = dst.length) (h : NonNeg dst)
    (a b : Int) :
    (copyForEachValue src (some a) dst (some b)).Perm
      ((boxList dst).map fun i => (a + offsetOf src i, b + offsetOf dst i)) := by
  obtain ⟨l, h1, h2, h3⟩ := optimizeCopyShapes_spec src dst hl h
  unfold copyForEachValue
  simp only [h1]
  rw [← Multiset.coe_eq_coe, forEachValueInOrder2_multiset, h2, h3]
  have := mbox_eq_offsets2 (List.zipWith CopyDims.mk src dst)
  rw [zipWith_src hl, zipWith_dst hl] at this
  have e : ((boxList dst).map fun i => (a + offsetOf src i, b + offsetOf dst i) :
      Multiset (Int × Int)) =
      Multiset.map (fun q => (a, b) + q)
        ((boxList dst).map fun i => (offsetOf src i, offsetOf dst i) : Multiset (Int × Int)) := by
    rw [Multiset.map_coe, List.map_map]; rfl
  rw [e, ← this, Multiset.map_map]
  congr 1; ext1 q
  ext <;> simp [add_assoc]

end Nda
