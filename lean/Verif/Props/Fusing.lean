import Verif.Lemmas.Fusing
import Verif.Props.Restrict
import Verif.Props.Order
/-
C86: how far the loops over values are fused.
-/
namespace Nda
open Spec

/-- C86: the loop nest of `for_each_value` is sorted by stride, innermost smallest, and no two neighbouring loops could be one; what
follows are loops that run once. -/
theorem C86_unfusible (s : Shape) : ∃ core n, optimizeShape s = core ++ List.replicate n ⟨0, 1, 0⟩ ∧
    core.Pairwise (fun a b => a.stride ≤ b.stride) ∧ Unfusible core := by
  obtain ⟨l, n, h1, -, h3⟩ := optimized_dims s
  refine ⟨fuseLoop canFuse fuse l, n, h1, ?_, ?_⟩
  · have h4 : (l.map Dim.stride).Pairwise (· ≤ ·) := List.pairwise_map.2 h3
    exact List.pairwise_map.1 (h4.sublist (fuseLoop_sublist (f := fuse) (g := Dim.stride) (fun _ _ => rfl) l))
  · refine (fuseLoop_chain canFuse_fuse l).imp fun a b hab => ?_
    rw [Bool.eq_false_iff, Ne, canFuse_iff, mul_comm] at hab
    exact hab

/-- A plane of 2×3 in rows of 8, five planes apart by 24: the planes are fused with the rows. -/
example : optimizeShape [⟨0, 5, 24⟩, ⟨0, 2, 1⟩, ⟨0, 3, 8⟩] = [⟨0, 2, 1⟩, ⟨0, 15, 8⟩] ++ List.replicate 1 ⟨0, 1, 0⟩ := by decide +kernel

theorem C86_unfusible_copy (src dst : Shape) (hl : src.length = dst.length) : ∃ (core : List CopyDims) (n : Nat),
    optimizeCopyShapes src dst = ((core.map CopyDims.src) ++ List.replicate n ⟨0, 1, 0⟩, (core.map CopyDims.dst) ++ List.replicate n ⟨0, 1, 0⟩) ∧
    core.Pairwise (fun a b => a.dst.stride ≤ b.dst.stride) ∧
    core.IsChain fun a b => a.src.extent ≠ a.dst.extent ∨ a.src.extent * a.src.stride ≠ b.src.stride ∨
      a.dst.extent * a.dst.stride ≠ b.dst.stride := by
  have key : ∃ l n, optimizeCopyShapes src dst = (((fuseLoop canFuseCopy fuseCopy l).map CopyDims.src) ++ List.replicate n ⟨0, 1, 0⟩,
      ((fuseLoop canFuseCopy fuseCopy l).map CopyDims.dst) ++ List.replicate n ⟨0, 1, 0⟩) ∧
      l.Pairwise (fun a b : CopyDims => a.dst.stride ≤ b.dst.stride) := by
    have dyn : ∃ l n, dynamicOptimizeCopyShapes src dst =
        (((fuseLoop canFuseCopy fuseCopy l).map CopyDims.src) ++ List.replicate n ⟨0, 1, 0⟩,
        ((fuseLoop canFuseCopy fuseCopy l).map CopyDims.dst) ++ List.replicate n ⟨0, 1, 0⟩) ∧
        l.Pairwise (fun a b : CopyDims => a.dst.stride ≤ b.dst.stride) := by
      refine ⟨bubbleSort copyDimsLt (List.zipWith CopyDims.mk src dst), (List.zipWith CopyDims.mk src dst).length -
        (fuseLoop canFuseCopy fuseCopy (bubbleSort copyDimsLt (List.zipWith CopyDims.mk src dst))).length, ?_,
        bubbleSort_sorted (f := fun c : CopyDims => c.dst.stride) (fun _ _ => rfl) _⟩
      unfold dynamicOptimizeCopyShapes padTo
      dsimp only
      rw [List.map_append, List.map_append, List.map_replicate, List.map_replicate]
    unfold optimizeCopyShapes
    split
    · rename_i s d
      exact ⟨[⟨s, d⟩], 0, by simp [fuseLoop], by simp⟩
    · exact dyn
  obtain ⟨l, n, h1, h2⟩ := key
  refine ⟨_, n, h1, ?_, ?_⟩
  · have h4 : (l.map fun d => d.dst.stride).Pairwise (· ≤ ·) := List.pairwise_map.2 h2
    exact List.pairwise_map.1 (h4.sublist (fuseLoop_sublist (f := fuseCopy) (g := fun d : CopyDims => d.dst.stride) (fun _ _ => rfl) l))
  · refine (fuseLoop_chain canFuseCopy_fuse l).imp fun a b hab => ?_
    rw [Bool.eq_false_iff] at hab
    by_contra hc
    push Not at hc
    apply hab
    simp only [canFuseCopy, Bool.and_eq_true, beq_iff_eq, canFuse_iff]
    exact ⟨⟨hc.1, by rw [mul_comm]; exact hc.2.1⟩, by rw [mul_comm]; exact hc.2.2⟩

/-- Two channels of a chunky image with four, to a planar image: the rows stay apart since the source has gaps. -/
example : optimizeCopyShapes [⟨0, 5, 4⟩, ⟨0, 3, 20⟩, ⟨0, 2, 1⟩] [⟨0, 5, 1⟩, ⟨0, 3, 5⟩, ⟨0, 2, 15⟩] =
    ([⟨0, 15, 4⟩, ⟨0, 2, 1⟩, ⟨0, 1, 0⟩], [⟨0, 15, 1⟩, ⟨0, 2, 15⟩, ⟨0, 1, 0⟩]) := by decide +kernel

/-! ### The shortest nest -/

theorem loopCount_pad (l : List Dim) (n : Nat) (h : ∀ d ∈ l, 2 ≤ d.extent) : loopCount (l ++ List.replicate n ⟨0, 1, 0⟩) = l.length := by
  unfold loopCount
  rw [List.filter_append, List.filter_eq_self.2 fun d hd => by have := h d hd; simp only [ne_eq, decide_eq_true_eq]; omega,
    List.filter_eq_nil_iff.2 fun d hd => by rw [List.eq_of_mem_replicate hd]; simp, List.append_nil]

theorem boxList_ne_nil {s : List Dim} (h : Pos s) : boxList s ≠ [] := by
  intro e
  have := mem_boxList.2 (inBox_mins h)
  rw [e] at this
  simp at this

theorem pos_of_boxList {s : List Dim} (h : boxList s ≠ []) : Pos s := by
  by_contra hc
  exact h (boxList_nil hc)

theorem filter_es {t : List Dim} (h : Pos t) :
    (t.map es).filter (fun d => d.1 ≠ 1) = (t.filter fun d => d.extent ≠ 1).map es := by
  rw [List.filter_map]
  congr 1
  apply List.filter_congr
  intro d hd
  have := h d hd
  simp only [es, Function.comp, ne_eq]
  congr 2
  apply propext
  constructor <;> intro <;> omega

theorem filter_two {t : List Dim} (h : Pos t) : ∀ d ∈ t.filter (fun d => d.extent ≠ 1), 2 ≤ d.extent := by
  intro d hd
  obtain ⟨h1, h2⟩ := List.mem_filter.1 hd
  have := h d h1
  simp only [ne_eq, decide_eq_true_eq] at h2
  omega

theorem optimized_core (s : Shape) (hs : ∀ d ∈ s, 2 ≤ d.extent) (b : Int) : ∃ core n,
    optimizeShape s = core ++ List.replicate n ⟨0, 1, 0⟩ ∧ (∀ d ∈ core, 2 ≤ d.extent) ∧ Fixed (core.map es) ∧
    s.forEachValue (some b) = (lbox (core.map es)).map fun o => b + o := by
  obtain ⟨l, n, h1, h2, -⟩ := optimized_dims s
  have hl : ∀ d ∈ l, 2 ≤ d.extent := fun d hd => hs d (h2.mem_iff.1 hd)
  refine ⟨_, n, h1, fuseLoop_mem (R := fun d : Dim => 2 ≤ d.extent) (fun a b ha hb _ => mul_ge_two ha hb) l hl, fixed_es hl, ?_⟩
  unfold Shape.forEachValue
  rw [forEachValueInOrder_eq, h1]
  rw [← lbox_pad _ n, show ((1 : Nat), (0 : Int)) = es ⟨0, 1, 0⟩ from rfl, ← List.map_replicate (f := es), ← List.map_append, lbox_eq_offsets,
    List.map_map]
  rfl

theorem optimized_unique (s t : Shape) (hs : ∀ d ∈ s, 2 ≤ d.extent) (b : Int)
    (h : t.forEachValueInOrder (some b) = s.forEachValue (some b)) : ∃ core n,
    optimizeShape s = core ++ List.replicate n ⟨0, 1, 0⟩ ∧ (∀ d ∈ core, 2 ≤ d.extent) ∧
    core.map es = (fuseLoop canFuse fuse (t.filter fun d => d.extent ≠ 1)).map es := by
  obtain ⟨core, n, h1, h2, h3, h4⟩ := optimized_core s hs b
  refine ⟨core, n, h1, h2, ?_⟩
  have hpc : Pos core := fun d hd => by have := h2 d hd; omega
  rw [h4, forEachValueInOrder_eq] at h
  have h5 : (lbox (t.map es)).map (fun o => b + o) = (lbox (core.map es)).map fun o => b + o := by
    rw [← h, lbox_eq_offsets, List.map_map]; rfl
  have h6 : lbox (t.map es) = lbox (core.map es) := List.map_injective_iff.2 (fun x y h => by have : b + x = b + y := h; omega) h5
  have hpt : Pos t := by
    apply pos_of_boxList
    intro e
    have h7 := lbox_eq_offsets t
    rw [h6, lbox_eq_offsets, e, List.map_nil, List.map_eq_nil_iff] at h7
    exact boxList_ne_nil hpc h7
  refine h3.unique (fixed_es (filter_two hpt)) ?_
  rw [fuseLoop_lbox _ (fun d hd => by have := filter_two hpt d hd; omega), ← filter_es hpt, lbox_filter, h6]

/-- C86: no loop nest with fewer loops visits the elements in the order of `for_each_value`, if no dim has extent 1. -/
theorem C86_shortest (s t : Shape) (hs : ∀ d ∈ s, 2 ≤ d.extent) (b : Int)
    (h : t.forEachValueInOrder (some b) = s.forEachValue (some b)) : loopCount (optimizeShape s) ≤ loopCount t := by
  obtain ⟨core, n, h1, h2, h3⟩ := optimized_unique s t hs b h
  rw [h1, loopCount_pad core n h2]
  have := congrArg List.length h3
  rw [List.length_map, List.length_map] at this
  rw [this]
  exact fuseLoop_length _ _ _

/-- Four dims, two loops. -/
example : let s : Shape := [⟨0, 4, 30⟩, ⟨0, 2, 1⟩, ⟨0, 3, 10⟩, ⟨1, 2, 2⟩]
    optimizeShape s = [⟨2, 4, 1⟩, ⟨0, 12, 10⟩, ⟨0, 1, 0⟩, ⟨0, 1, 0⟩] ∧ loopCount (optimizeShape s) = 2 := by decide +kernel

theorem zip_filter {l : List CopyDims} (h : ∀ d ∈ l, 0 < d.dst.extent) :
    (l.map ces).filter (fun d => d.1 ≠ 1) = (l.filter fun d => d.dst.extent ≠ 1).map ces := by
  rw [List.filter_map]
  congr 1
  apply List.filter_congr
  intro d hd
  have := h d hd
  simp only [ces, Function.comp, ne_eq]
  congr 2
  apply propext
  constructor <;> intro <;> omega

/-- The dims of a nest over two arrays, as pairs with equal extents. -/
def nestDims (tsrc tdst : Shape) : List CopyDims := List.zipWith (fun a b : Dim => ⟨⟨a.min, b.extent, a.stride⟩, b⟩) tsrc tdst

theorem nestDims_ces {tsrc tdst : Shape} : (nestDims tsrc tdst).map ces = (List.zipWith CopyDims.mk tsrc tdst).map ces := by
  unfold nestDims
  rw [List.map_zipWith, List.map_zipWith]
  rfl

/-- C86 for copies between arrays with equal extents: no loop nest with fewer loops visits the pairs of elements in the same order. -/
theorem C86_shortest_copy (src dst tsrc tdst : Shape) (hl : src.length = dst.length) (ht : tsrc.length = tdst.length)
    (hs : ∀ d ∈ List.zip src dst, d.1.extent = d.2.extent ∧ 2 ≤ d.2.extent) (a b a' b' : Int)
    (h : Shape.forEachValueInOrder2 tdst tsrc (some a') tdst (some b') = copyForEachValue src (some a) dst (some b)) :
    loopCount (optimizeCopyShapes src dst).2 ≤ loopCount tdst := by
  have hsd : ∀ d ∈ List.zipWith CopyDims.mk src dst, d.src.extent = d.dst.extent ∧ 2 ≤ d.dst.extent := by
    intro d hd
    rw [← List.map_uncurry_zip_eq_zipWith] at hd
    obtain ⟨x, hx, rfl⟩ := List.mem_map.1 hd
    exact hs x hx
  -- the optimized nest
  obtain ⟨l, n, h1, h2⟩ : ∃ l n, optimizeCopyShapes src dst = (((fuseLoop canFuseCopy fuseCopy l).map CopyDims.src) ++
      List.replicate n ⟨0, 1, 0⟩, ((fuseLoop canFuseCopy fuseCopy l).map CopyDims.dst) ++ List.replicate n ⟨0, 1, 0⟩) ∧
      ∀ d ∈ l, d.src.extent = d.dst.extent ∧ 2 ≤ d.dst.extent := by
    unfold optimizeCopyShapes
    split
    · rename_i s d
      refine ⟨[⟨s, d⟩], 0, by simp [fuseLoop], ?_⟩
      intro e he
      exact hsd e (by simpa using he)
    · refine ⟨bubbleSort copyDimsLt (List.zipWith CopyDims.mk src dst), (List.zipWith CopyDims.mk src dst).length -
        (fuseLoop canFuseCopy fuseCopy (bubbleSort copyDimsLt (List.zipWith CopyDims.mk src dst))).length, ?_, fun d hd => hsd d ((bubbleSort_perm _ _).mem_iff.1 hd)⟩
      unfold dynamicOptimizeCopyShapes padTo
      dsimp only
      rw [List.map_append, List.map_append, List.map_replicate, List.map_replicate]
  have hfix := fixed_ces h2
  have h3 := fuseLoop_mem (can := canFuseCopy) (f := fuseCopy) (R := fun d : CopyDims => d.src.extent = d.dst.extent ∧ 2 ≤ d.dst.extent)
    (fun a b ha hb _ => ⟨by simp [fuseCopy, fuse, ha.1, hb.1], mul_ge_two ha.2 hb.2⟩) l h2
  generalize fuseLoop canFuseCopy fuseCopy l = core at h1 hfix h3
  rw [h1]
  dsimp only
  rw [loopCount_pad _ n (by
    intro d hd
    obtain ⟨e, he, rfl⟩ := List.mem_map.1 hd
    exact (h3 e he).2), List.length_map]
  -- the offsets of both nests
  have hopt : ∀ q : List CopyDims, ∀ a b : Int, Shape.forEachValueInOrder2 (q.map CopyDims.dst) (q.map CopyDims.src) (some a)
      (q.map CopyDims.dst) (some b) = (lbox (q.map ces)).map fun o => (a + (q.map cstart).sum + o.1, b + o.2) := by
    intro q a b
    rw [forEachValueInOrder2_eq _ _ _ (by simp) (by simp)]
    have := congrArg (List.map fun o : Int × Int => (a + o.1, b + o.2)) (lbox_eq_offsets2 q)
    rw [List.map_map, List.map_map] at this
    refine this.symm.trans ?_
    apply List.map_congr_left
    intro o _
    simp [add_assoc]
  have hpad : copyForEachValue src (some a) dst (some b) =
      (lbox (core.map ces)).map fun o => (a + ((core ++ List.replicate n (CopyDims.mk ⟨0, 1, 0⟩ ⟨0, 1, 0⟩)).map cstart).sum + o.1, b + o.2) := by
    unfold copyForEachValue
    dsimp only
    rw [h1]
    dsimp only
    have := hopt (core ++ List.replicate n (CopyDims.mk ⟨0, 1, 0⟩ ⟨0, 1, 0⟩)) a b
    rw [List.map_append, List.map_append, List.map_replicate, List.map_replicate] at this
    dsimp only at this
    rw [this]
    congr 1
    rw [List.map_append, List.map_replicate, show ces ⟨⟨0, 1, 0⟩, ⟨0, 1, 0⟩⟩ = (1, 0) from rfl, lbox_pad]
  have hnest := hopt (List.zipWith CopyDims.mk tsrc tdst) a' b'
  rw [zipWith_src ht, zipWith_dst ht, h, hpad] at hnest
  generalize ((core ++ List.replicate n (CopyDims.mk ⟨0, 1, 0⟩ ⟨0, 1, 0⟩)).map cstart).sum = c at hnest
  generalize ((List.zipWith CopyDims.mk tsrc tdst).map cstart).sum = c' at hnest
  -- all extents of the other nest are positive
  have hposcore : ∀ d ∈ core.map ces, 0 < d.1 := by
    intro d hd
    have := hfix.1 d hd
    omega
  have hlen : (lbox (core.map ces)).length = (boxList tdst).length := by
    have := congrArg List.length hnest
    rw [List.length_map, List.length_map] at this
    rw [this]
    have h5 := congrArg List.length (lbox_eq_offsets2 (List.zipWith CopyDims.mk tsrc tdst))
    rw [List.length_map, List.length_map, zipWith_dst ht] at h5
    exact h5
  have hposlen : 0 < (lbox (core.map ces)).length := by
    rw [lbox_steps _ hposcore, List.length_map, List.length_range]
    exact steps_pos hfix.1
  have hpt : Pos tdst := by
    apply pos_of_boxList
    intro e
    rw [e, List.length_nil] at hlen
    omega
  -- both start at offset 0
  have hmem : ∀ d ∈ nestDims tsrc tdst, d.src.extent = d.dst.extent ∧ d.dst ∈ tdst := by
    intro d hd
    unfold nestDims at hd
    rw [← List.map_uncurry_zip_eq_zipWith] at hd
    obtain ⟨x, hx, rfl⟩ := List.mem_map.1 hd
    exact ⟨rfl, (List.of_mem_zip hx).2⟩
  have hposnest : ∀ d ∈ (List.zipWith CopyDims.mk tsrc tdst).map ces, 0 < d.1 := by
    intro d hd
    rw [← nestDims_ces] at hd
    obtain ⟨e, he, rfl⟩ := List.mem_map.1 hd
    have := hpt _ (hmem e he).2
    simp only [ces]; omega
  have hlb : lbox (core.map ces) = lbox ((List.zipWith CopyDims.mk tsrc tdst).map ces) := by
    have hhead : ∀ l : List (Nat × (Int × Int)), (∀ d ∈ l, 0 < d.1) → (lbox l).head? = some 0 := by
      intro l hl
      rw [lbox_steps l hl, List.head?_map]
      have : 0 < steps l := by
        clear hnest
        induction l with
        | nil => simp [steps]
        | cons d l ih =>
          rw [steps_cons d.1 d.2 l]
          exact Nat.mul_pos (hl d (by simp)) (ih fun e he => hl e (by simp [he]))
      rw [List.head?_range, if_neg (by omega)]
      simp [stepOffset_zero]
    have e1 := congrArg List.head? hnest
    rw [List.head?_map, List.head?_map, hhead _ hposcore, hhead _ hposnest] at e1
    simp only [Option.map_some, Option.some.injEq, Prod.fst_zero, Prod.snd_zero, Prod.mk.injEq, add_zero] at e1
    rw [e1.1, e1.2] at hnest
    refine List.map_injective_iff.2 (fun x y hxy => ?_) hnest
    simp only [Prod.mk.injEq] at hxy
    ext
    · omega
    · omega
  -- and the other nest can be fused to the same
  have hfilt : ∀ d ∈ (nestDims tsrc tdst).filter (fun d => d.dst.extent ≠ 1), d.src.extent = d.dst.extent ∧ 2 ≤ d.dst.extent := by
    intro d hd
    obtain ⟨h4, h5⟩ := List.mem_filter.1 hd
    obtain ⟨h6, h7⟩ := hmem d h4
    have := hpt _ h7
    simp only [ne_eq, decide_eq_true_eq] at h5
    exact ⟨h6, by omega⟩
  have heq := hfix.unique (fixed_ces hfilt) (by
    rw [fuseCopy_lbox _ (fun d hd => by have := (hfilt d hd).2; omega),
      ← zip_filter (fun d hd => hpt _ (hmem d hd).2), lbox_filter, nestDims_ces, hlb])
  have h8 := congrArg List.length heq
  rw [List.length_map, List.length_map] at h8
  rw [h8]
  refine (fuseLoop_length _ _ _).trans ?_
  have h9 : ((nestDims tsrc tdst).filter fun d => d.dst.extent ≠ 1).length =
      (((nestDims tsrc tdst).map CopyDims.dst).filter fun d => d.extent ≠ 1).length := by
    rw [List.filter_map, List.length_map]; rfl
  rw [h9]
  have h10 : (nestDims tsrc tdst).map CopyDims.dst = tdst := by
    have := zipWith_dst ht
    unfold nestDims
    rw [List.map_zipWith] at this ⊢
    exact this
  rw [h10]
  exact le_rfl

/-! ### One loop -/

/-- C86: for an array without gaps and without dims of extent 1, whatever the order of its dims, `for_each_value` is one loop over
all elements. -/
theorem C86_one_loop (s : Shape) (n : Int) (hne : s ≠ []) (hs : ∀ d ∈ s, 2 ≤ d.extent) (hf : Forward s) (hi : Injective s)
    (hg : Gapless s n) : ∃ m, optimizeShape s = ⟨m, n, 1⟩ :: List.replicate (s.length - 1) ⟨0, 1, 0⟩ := by
  have hpos : Pos s := fun d hd => by have := hs d hd; omega
  obtain ⟨hlen, hval⟩ := C61_consecutive ⟨some 0, s⟩ 0 n rfl hpos hf hi hg
  have hn0 : 0 ≤ n := by rw [← hlen]; omega
  have hn2 : 2 ≤ n := by
    -- two elements at least
    match s, hne with
    | d :: ds, _ =>
      have hd := hs d (by simp)
      have hds : Pos ds := fun e he => hpos e (by simp [he])
      have hb0 : InBox (d :: ds) (d.min :: ds.map Dim.min) := inBox_cons_iff.2 ⟨_, _, rfl, ⟨le_rfl, by omega⟩, inBox_mins hds⟩
      have hb1 : InBox (d :: ds) ((d.min + 1) :: ds.map Dim.min) := inBox_cons_iff.2 ⟨_, _, rfl, ⟨by omega, by omega⟩, inBox_mins hds⟩
      have h0 := (hg _).1 ⟨_, hb0, rfl⟩
      have h1 := (hg _).1 ⟨_, hb1, rfl⟩
      by_contra hc
      have := hi _ _ hb0 hb1 (by omega)
      simp at this
  have hseq : Shape.forEachValueInOrder [⟨0, n, 1⟩] (some 0) = s.forEachValue (some 0) := by
    rw [forEachValueInOrder_eq]
    apply List.ext_getElem?
    intro k
    by_cases hk : (k : Int) < n
    · have := hval k hk
      unfold ArrayRef.forEachValue at this
      dsimp only at this
      rw [this]
      have hk' : k < n.toNat := by omega
      simp [boxList, ints, offsetOf, hk']
    · have h1 : (s.forEachValue (some 0)).length = n.toNat := by
        unfold ArrayRef.forEachValue at hlen
        dsimp only at hlen
        omega
      rw [List.getElem?_eq_none (l := s.forEachValue (some 0)) (by rw [h1]; omega), List.getElem?_eq_none]
      rw [List.length_map, boxList_length]
      simp
      omega
  obtain ⟨core, k, h1, h2, h3⟩ := optimized_unique s [⟨0, n, 1⟩] hs 0 hseq
  have hfil : ([⟨0, n, 1⟩] : List Dim).filter (fun d => d.extent ≠ 1) = [⟨0, n, 1⟩] := by
    rw [List.filter_cons_of_pos (by simp only [ne_eq, decide_eq_true_eq]; omega)]; rfl
  rw [hfil, fuseLoop] at h3
  have hlen1 := congrArg List.length h3
  simp only [List.length_map, List.length_singleton] at hlen1
  obtain ⟨d, rfl⟩ := List.length_eq_one_iff.1 hlen1
  simp only [List.map_cons, List.map_nil, es, List.cons.injEq, Prod.mk.injEq, and_true] at h3
  have hd := h2 d (by simp)
  refine ⟨d.min, ?_⟩
  have hk : k = s.length - 1 := by
    have := congrArg List.length h1
    rw [List.length_append, List.length_replicate, List.length_singleton] at this
    have hr : (optimizeShape s).length = s.length := by
      unfold optimizeShape
      split
      · rfl
      · unfold dynamicOptimizeShape padTo
        rw [List.length_append, List.length_replicate]
        have h5 := fuseLoop_length canFuse fuse (bubbleSort dimLt s)
        rw [(bubbleSort_perm dimLt s).length_eq] at h5
        omega
    rw [hr] at this
    omega
  rw [h1, hk, List.singleton_append]
  obtain ⟨dm, de, ds⟩ := d
  dsimp only at *
  rw [h3.2, show de = n by omega]

/-- A chunky image with three channels: dims x, y, c with strides 3, 15, 1. -/
example : optimizeShape [⟨0, 5, 3⟩, ⟨0, 4, 15⟩, ⟨0, 3, 1⟩] = [⟨0, 60, 1⟩, ⟨0, 1, 0⟩, ⟨0, 1, 0⟩] := by decide +kernel

/-- C86: so are copies and comparisons between arrays of the same shape. -/
theorem C86_one_loop_copy (s : Shape) (n : Int) (hne : s ≠ []) (hs : ∀ d ∈ s, 2 ≤ d.extent) (hf : Forward s) (hi : Injective s)
    (hg : Gapless s n) : ∃ m, optimizeCopyShapes s s =
      (⟨m, n, 1⟩ :: List.replicate (s.length - 1) ⟨0, 1, 0⟩, ⟨m, n, 1⟩ :: List.replicate (s.length - 1) ⟨0, 1, 0⟩) := by
  obtain ⟨m, h⟩ := C86_one_loop s n hne hs hf hi hg
  exact ⟨m, by rw [optimizeCopyShapes_same, h]⟩

/-- C86: with strides left to the library dims of extent 1 do not matter. -/
theorem C86_automatic (s : Shape) (hne : s ≠ []) (hpos : Pos s) (hu : ∀ d ∈ s, ¬ Known d)
    (hfit : (s.map Dim.extent).prod ≤ 9223372036854775807) :
    ∃ m, optimizeShape s.resolve = ⟨m, (s.map Dim.extent).prod, 1⟩ :: List.replicate (s.length - 1) ⟨0, 1, 0⟩ := by
  rw [resolve_prod hpos hu hfit]
  match s, hne with
  | [d], _ => exact ⟨d.min, by simp [prodStrides, optimizeShape]⟩
  | d :: d2 :: l, _ =>
    obtain ⟨m', h⟩ := fuse_prodStrides d.min d.extent 1 (d2 :: l)
    refine ⟨m', ?_⟩
    have hb := bubbleSort_of_sorted (prodStrides_sorted (c := 1) (by omega) hpos).1
    have e : prodStrides 1 (d :: d2 :: l) = ⟨d.min, d.extent, 1⟩ :: prodStrides (1 * d.extent) (d2 :: l) := rfl
    show dynamicOptimizeShape (prodStrides 1 (d :: d2 :: l)) = _
    unfold dynamicOptimizeShape padTo
    have hlen : (prodStrides 1 (d :: d2 :: l)).length = (d :: d2 :: l).length := by
      have := congrArg List.length (prodStrides_extents 1 (d :: d2 :: l))
      simpa using this
    rw [hb, hlen, e, h]
    simp

example : optimizeShape (Shape.resolve [⟨0, 5, -9223372036854775808⟩, ⟨7, 1, -9223372036854775808⟩, ⟨0, 4, -9223372036854775808⟩]) = [⟨35, 20, 1⟩, ⟨0, 1, 0⟩, ⟨0, 1, 0⟩] := by decide +kernel

/-! ### What it costs -/

theorem pointerSteps_append {P : Type} (l m : List (LoopEvent P)) : pointerSteps (l ++ m) = pointerSteps l + pointerSteps m := by
  induction l with
  | nil => simp [pointerSteps]
  | cons e l ih =>
    cases e with
    | call => simp only [List.cons_append, pointerSteps, ih]
    | form => simp only [List.cons_append, pointerSteps, ih]; omega

theorem steps_dense (n : Nat) (p : Int) : pointerSteps (denseEvents (p + n) p) = n := by
  induction n generalizing p with
  | zero => rw [denseEvents, if_neg (by simp [PtrPack.ptr0])]; rfl
  | succ n ih =>
    rw [denseEvents, if_pos (by simp only [PtrPack.ptr0]; omega)]
    simp only [pointerSteps]
    have := ih (p + 1)
    rw [show p + ((n + 1 : Nat) : Int) = p + 1 + n by push_cast; ring]
    exact congrArg (· + 1) this

theorem steps_pads (k : Nat) (l : List (Int × Int)) (hl : l ≠ []) (p : Int) :
    pointerSteps (valueEvents (List.replicate k (1, 0) ++ l) p) = pointerSteps (valueEvents l p) + k := by
  induction k generalizing p with
  | zero => rfl
  | succ k ih =>
    obtain ⟨x, xs, hx⟩ : ∃ x xs, List.replicate k ((1 : Int), (0 : Int)) ++ l = x :: xs := by
      cases h : List.replicate k ((1 : Int), (0 : Int)) ++ l with
      | nil => simp at h; exact absurd h.2 hl
      | cons x xs => exact ⟨x, xs, rfl⟩
    have hx' := hx
    rw [List.replicate_succ, List.cons_append, hx]
    have : valueEvents ((1, 0) :: x :: xs) p = strideEvents (valueEvents (x :: xs)) 0 1 p := by
      rw [valueEvents]
      · rfl
      · simp
    rw [this, strideEvents, strideEvents, pointerSteps_append, ← hx', ih]
    simp only [pointerSteps]
    omega

theorem steps_one_loop (s : Shape) (n : Nat) (b : Int) (hne : s ≠ [])
    (h : ∃ m, optimizeShape s = ⟨m, n, 1⟩ :: List.replicate (s.length - 1) ⟨0, 1, 0⟩) :
    pointerSteps (s.valueEvents (some b)) = n + s.length := by
  obtain ⟨m, h⟩ := h
  have hl : 0 < s.length := List.length_pos_iff.2 hne
  unfold Shape.valueEvents Shape.inOrderEvents
  dsimp only
  rw [h, List.map_cons, List.map_replicate, List.reverse_cons, List.reverse_replicate, steps_pads _ _ (by simp)]
  rw [valueEvents, if_pos (show PtrPack.allOne (1 : Int) = true by decide)]
  simp only [pointerSteps]
  have := steps_dense n b
  simp only [PtrPack.ptr0]
  rw [this]
  omega

/-- C86: `for_each_value` over an array without gaps and dims of extent 1 computes one pointer per element, one for the end, and one
for each other dim. -/
theorem C86_steps (s : Shape) (n : Nat) (b : Int) (hne : s ≠ []) (hs : ∀ d ∈ s, 2 ≤ d.extent) (hf : Forward s) (hi : Injective s)
    (hg : Gapless s n) : pointerSteps (s.valueEvents (some b)) = n + s.length :=
  steps_one_loop s n b hne (C86_one_loop s n hne hs hf hi hg)

example : pointerSteps (Shape.valueEvents [⟨0, 5, 3⟩, ⟨0, 4, 15⟩, ⟨0, 3, 1⟩] (some 0)) = 63 := by decide +kernel

/-- A dim of extent 1 with the stride of another dim keeps loops apart: a chunky image with one channel is visited row by row, although
it has no gaps and its rows could be one loop. -/
theorem C86_unit_counterexample : ∃ s : Shape, Pos s ∧ Forward s ∧ s.isCompact = true ∧ s.isOneToOne = true ∧
    s = [⟨0, 5, 1⟩, ⟨0, 4, 5⟩, ⟨0, 1, 1⟩] ∧ optimizeShape s = [⟨0, 5, 1⟩, ⟨0, 1, 1⟩, ⟨0, 4, 5⟩] ∧
    s.forEachValue (some 0) = Shape.forEachValueInOrder [⟨0, 20, 1⟩] (some 0) ∧
    loopCount (optimizeShape s) = 2 ∧ pointerSteps (s.valueEvents (some 0)) = 32 := by
  refine ⟨_, by simp [Pos], ?_, ?_, ?_, rfl, ?_⟩
  · simp [Forward]
  all_goals decide +kernel

end Nda
