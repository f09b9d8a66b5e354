/-
C81: the arithmetic of loops over values, copies, splits and z-order traversals on an `index_t` of `w` bits
(64 by default, 32 with NDARRAY_INT_INDICES).  `none` is undefined behaviour or a loop without end.
-/
import Verif.Lemmas.CheckedSplit
import Verif.Lemmas.CheckedZOrder
import Verif.Spec.Checked
import Verif.Props.Split

namespace Nda

open Spec

variable {w : Nat}

/-! ### Flat offsets -/

theorem inBox_wzip : ∀ {s : List (WDim w)} {i : List (BitVec w)}, InBox (s.map WDim.toDim) (i.map BitVec.toInt) →
    (∀ p ∈ s.zip i, p.1.min.toInt ≤ p.2.toInt ∧ p.2.toInt < p.1.min.toInt + p.1.extent.toInt) ∧
    offsetOf (s.map WDim.toDim) (i.map BitVec.toInt) =
      ((s.zip i).map fun p => (p.2.toInt - p.1.min.toInt) * p.1.stride.toInt).sum ∧
    ((s.zip i).map fun p => |(p.2.toInt - p.1.min.toInt) * p.1.stride.toInt|).sum ≤ totalSpan (s.map WDim.toDim)
  | [], [], _ => by simp [offsetOf, totalSpan]
  | [], _ :: _, h => by simp [InBox] at h
  | _ :: _, [], h => by simp [InBox] at h
  | d :: s, x :: i, h => by
    obtain ⟨h0, h⟩ := h
    obtain ⟨h1, h2, h3⟩ := inBox_wzip h
    have h0 : d.min.toInt ≤ x.toInt ∧ x.toInt < d.min.toInt + d.extent.toInt := h0
    refine ⟨?_, ?_, ?_⟩
    · intro p hp
      rw [List.zip_cons_cons, List.mem_cons] at hp
      rcases hp with rfl | hp
      · exact h0
      · exact h1 p hp
    · simp only [List.map_cons, List.zip_cons_cons, List.sum_cons, offsetOf, h2]
      rfl
    · have e : totalSpan ((d :: s).map WDim.toDim) =
          |d.extent.toInt - 1| * |d.stride.toInt| + totalSpan (s.map WDim.toDim) := by
        unfold totalSpan; simp [WDim.toDim]
      rw [e, List.zip_cons_cons, List.map_cons, List.sum_cons]
      have : |(x.toInt - d.min.toInt) * d.stride.toInt| ≤ |d.extent.toInt - 1| * |d.stride.toInt| := by
        rw [abs_mul]
        apply mul_le_mul_of_nonneg_right _ (abs_nonneg _)
        rw [abs_of_nonneg (by omega), abs_of_nonneg (by omega)]
        omega
      dsimp only
      omega

/-- C81: the flat offset of an in-range index is computed exactly, for every width of `index_t`. -/
theorem C81_flat_offset (s : List (WDim w)) (i : List (BitVec w))
    (hi : InBox (s.map WDim.toDim) (i.map BitVec.toInt)) (hfit : totalSpan (s.map WDim.toDim) < 2 ^ (w - 1)) :
    ∃ r, wFlatOffset s i = some r ∧ r.toInt = offsetOf (s.map WDim.toDim) (i.map BitVec.toInt) := by
  obtain ⟨h1, h2, h3⟩ := inBox_wzip hi
  rw [h2]
  refine wFlatOffset_val s i (fun p hp => ?_) (lt_of_le_of_lt h3 hfit)
  have := h1 p hp
  have := fit_toInt p.1.extent
  unfold Fit at this ⊢
  omega

/-! ### Loops over values -/

/-- C81: if the extents, spans and mins are small enough then optimizing a shape does not overflow, and
the result is that of unbounded arithmetic. -/
theorem C81_optimize_shape (hw : 2 ≤ w) (s : List (WDim w)) (h : FuseFits w (s.map WDim.toDim)) :
    ∃ r, wOptimizeShape s = some r ∧ r.map WDim.toDim = optimizeShape (s.map WDim.toDim) := by
  match s, h with
  | [], h => exact wDynamicOptimizeShape_eq hw [] h
  | [d], _ => exact ⟨[d], rfl, rfl⟩
  | a :: b :: s, h => exact wDynamicOptimizeShape_eq hw (a :: b :: s) h

theorem minReach_zero {s : List Dim} (h : ∀ d ∈ s, d.min = 0) : minReach s = 0 := by
  induction s with
  | nil => rfl
  | cons d s ih =>
    simp [minReach, h d (by simp), ih fun x hx => h x (List.mem_cons_of_mem _ hx)]

/-- C81: if all mins are zero it is enough that the number of elements (extents below 1 counting as 1) and
the span of each dim are representable. -/
theorem C81_optimize_shape_zero_min (hw : 2 ≤ w) (s : List (WDim w)) (hm : ∀ d ∈ s, d.min = 0#w)
    (hn : ∀ d ∈ s, 0 ≤ d.extent.toInt) (hs : ∀ d ∈ s, |d.stride.toInt * d.extent.toInt| < 2 ^ (w - 1))
    (he : extentWeight (s.map WDim.toDim) < 2 ^ (w - 1)) :
    ∃ r, wOptimizeShape s = some r ∧ r.map WDim.toDim = optimizeShape (s.map WDim.toDim) := by
  refine C81_optimize_shape hw s ⟨?_, ?_, he, ?_⟩
  · intro d hd
    obtain ⟨x, hx, rfl⟩ := List.mem_map.1 hd
    exact hn x hx
  · intro d hd
    obtain ⟨x, hx, rfl⟩ := List.mem_map.1 hd
    exact hs x hx
  · rw [minReach_zero]
    · positivity
    · intro d hd
      obtain ⟨x, hx, rfl⟩ := List.mem_map.1 hd
      show x.min.toInt = 0
      rw [hm x hx, BitVec.toInt_zero]

/-- C81: the same for the shapes of a copy. -/
theorem C81_optimize_copy (hw : 2 ≤ w) (src dst : List (WDim w)) (hlen : src.length = dst.length)
    (hs : FuseFits w (src.map WDim.toDim)) (hd : FuseFits w (dst.map WDim.toDim)) :
    ∃ a b, wOptimizeCopyShapes src dst = some (a, b) ∧
      (a.map WDim.toDim, b.map WDim.toDim) = optimizeCopyShapes (src.map WDim.toDim) (dst.map WDim.toDim) := by
  have gen : ∃ a b, wDynamicOptimizeCopyShapes src dst = some (a, b) ∧
      (a.map WDim.toDim, b.map WDim.toDim) =
        dynamicOptimizeCopyShapes (src.map WDim.toDim) (dst.map WDim.toDim) := by
    obtain ⟨z1, z2⟩ := zipWith_copy_src (src := src.map WDim.toDim) (dst := dst.map WDim.toDim) (by simp [hlen])
    rw [zipWith_toCopyDims] at z1 z2
    obtain ⟨r, h1, h2⟩ := wCopyDims_eq hw (List.zipWith WCopyDims.mk src dst) (by rw [z1]; exact hs)
      (by rw [z2]; exact hd)
    refine ⟨_, _, by unfold wDynamicOptimizeCopyShapes; dsimp only; rw [h1]; rfl, ?_⟩
    unfold dynamicOptimizeCopyShapes
    rw [zipWith_toCopyDims]
    dsimp only
    rw [← h2]
    simp only [List.map_map]
    rfl
  match src, dst, gen with
  | [], _, gen => exact gen
  | [a], [], gen => exact gen
  | [a], [b], _ => exact ⟨[a], [b], rfl, rfl⟩
  | [a], _ :: _ :: _, gen => exact gen
  | _ :: _ :: _, _, gen => exact gen

/-- C81: a copy starts at the element of the source whose index is the min of the destination, and at the
first element of the destination; the offsets are computed exactly. -/
theorem C81_copy_start (hw : 2 ≤ w) (src dst : List (WDim w))
    (hs : FuseFits w (src.map WDim.toDim)) (hd : FuseFits w (dst.map WDim.toDim))
    (hin : InsideOf (src.map WDim.toDim) (dst.map WDim.toDim))
    (hr : startReach (src.map WDim.toDim) (dst.map WDim.toDim) < 2 ^ (w - 1)) :
    ∃ a b, wCopyStart src dst = some (a, b) ∧
      a.toInt = offsetOf (src.map WDim.toDim) ((dst.map WDim.toDim).map Dim.min) ∧ b.toInt = 0 := by
  have hlen : src.length = dst.length := by simpa using hin.length
  obtain ⟨i1, i2, i3⟩ := insideOf_copy hin hd.nonneg
  rw [zipWith_toCopyDims] at i1 i2 i3
  -- whatever the optimized dims are, they start at the same elements
  have fin : ∀ D : List (WCopyDims w), wOptimizeCopyShapes src dst = some (D.map WCopyDims.src, D.map WCopyDims.dst) →
      (∀ c ∈ D.map WCopyDims.toCopyDims, CopyInside c) →
      ((D.map WCopyDims.toCopyDims).map copyReach).sum = startReach (src.map WDim.toDim) (dst.map WDim.toDim) →
      ((D.map WCopyDims.toCopyDims).map fun c => (c.dst.min - c.src.min) * c.src.stride).sum =
        offsetOf (src.map WDim.toDim) ((dst.map WDim.toDim).map Dim.min) →
      ∃ a b, wCopyStart src dst = some (a, b) ∧
        a.toInt = offsetOf (src.map WDim.toDim) ((dst.map WDim.toDim).map Dim.min) ∧ b.toInt = 0 := by
    intro D h1 h2 h3 h4
    obtain ⟨⟨a, ha, va⟩, ⟨b, hb, vb⟩⟩ := wStart_val D (fun c hc => h2 _ (List.mem_map_of_mem hc)) (by rw [h3]; exact hr)
    refine ⟨a, b, ?_, by rw [va, h4], vb⟩
    unfold wCopyStart
    rw [h1]
    simp only [Option.bind_eq_bind, Option.bind_some, ha, hb]
  have gen : wOptimizeCopyShapes src dst = wDynamicOptimizeCopyShapes src dst →
      ∃ a b, wCopyStart src dst = some (a, b) ∧
        a.toInt = offsetOf (src.map WDim.toDim) ((dst.map WDim.toDim).map Dim.min) ∧ b.toInt = 0 := by
    intro he
    obtain ⟨z1, z2⟩ := zipWith_copy_src (src := src.map WDim.toDim) (dst := dst.map WDim.toDim) (by simp [hlen])
    rw [zipWith_toCopyDims] at z1 z2
    obtain ⟨r, h1, h2⟩ := wCopyDims_eq hw (List.zipWith WCopyDims.mk src dst) (by rw [z1]; exact hs)
      (by rw [z2]; exact hd)
    have hperm := bubbleSort_perm copyDimsLt ((List.zipWith WCopyDims.mk src dst).map WCopyDims.toCopyDims)
    obtain ⟨f1, f2⟩ := fuseLoop_forall (R := CopyInside) (g := copyReach) fuseCopy_inside _ _ rfl
      (fun c hc => i1 c (hperm.mem_iff.1 hc))
    obtain ⟨_, f3⟩ := fuseLoop_forall (R := CopyInside)
      (g := fun c => (c.dst.min - c.src.min) * c.src.stride) fuseCopy_signed _ _ rfl
      (fun c hc => i1 c (hperm.mem_iff.1 hc))
    have p1 : ∀ n : Nat, ((List.replicate n (CopyDims.mk ⟨0, 1, 0⟩ ⟨0, 1, 0⟩)).map copyReach).sum = 0 := by
      intro n; simp [copyReach]
    refine fin (padTo ⟨wPad, wPad⟩ (List.zipWith WCopyDims.mk src dst).length r) ?_ ?_ ?_ ?_
    · rw [he]
      unfold wDynamicOptimizeCopyShapes
      dsimp only
      rw [h1]; rfl
    · rw [h2]
      intro c hc
      unfold padTo at hc
      rcases List.mem_append.1 hc with hc | hc
      · exact f1 c hc
      · obtain ⟨_, rfl⟩ := List.mem_replicate.1 hc
        unfold CopyInside; simp
    · rw [h2]
      unfold padTo
      rw [List.map_append, List.sum_append, f2, p1, add_zero, (hperm.map _).sum_eq, i2]
    · rw [h2]
      unfold padTo
      rw [List.map_append, List.sum_append, f3, (hperm.map _).sum_eq, i3]
      simp
  clear hs hd hin hr hlen
  match src, dst, fin, gen, i1, i2, i3 with
  | [], _, _, gen, _, _, _ => exact gen rfl
  | [a], [], _, gen, _, _, _ => exact gen rfl
  | [a], [b], fin, _, i1, i2, i3 => exact fin [⟨a, b⟩] rfl i1 i2 i3
  | [a], _ :: _ :: _, _, gen, _, _, _ => exact gen rfl
  | _ :: _ :: _, _, _, gen, _, _, _ => exact gen rfl

/-- C81, fails in general: every element of this dense crop is at an offset below 32 and its flat offsets
are computed without overflow, but `fill`, `copy`, `for_each_value` overflow: `fuse` multiplies the min of
the outer dim, which does not matter for the loop, by the extent of the inner dim. -/
theorem C81_fuse_min_counterexample :
    ∃ s : List (WDim 64), NonNeg (s.map WDim.toDim) ∧ totalSpan (s.map WDim.toDim) = 31 ∧
      (∀ d ∈ s, ∃ m, (WIvl.max ⟨d.min, d.extent⟩) = some m) ∧ wOptimizeShape s = none := by
  refine ⟨[⟨0#64, 16#64, 1#64⟩, ⟨BitVec.ofNat 64 (2 ^ 60), 2#64, 16#64⟩], ?_, ?_, ?_, ?_⟩
  · unfold NonNeg; decide
  · decide +kernel
  · intro d hd
    simp only [List.mem_cons, List.not_mem_nil, or_false] at hd
    rcases hd with rfl | rfl
    · exact ⟨15#64, by decide +kernel⟩
    · exact ⟨BitVec.ofNat 64 (2 ^ 60 + 1), by decide +kernel⟩
  · show wDynamicOptimizeShape _ = none
    unfold wDynamicOptimizeShape
    have : bubbleSort wDimLt [(⟨0#64, 16#64, 1#64⟩ : WDim 64), ⟨BitVec.ofNat 64 (2 ^ 60), 2#64, 16#64⟩] =
        [⟨0#64, 16#64, 1#64⟩, ⟨BitVec.ofNat 64 (2 ^ 60), 2#64, 16#64⟩] := by
      simp [bubbleSort, bubbleInner, wDimLt]
    rw [this, wFuseLoop]
    decide +kernel

/-- C81: with `int` indices this happens at moderate sizes: two rows, of 65536 elements each, of an image
cropped at row 40000. -/
theorem C81_fuse_min_int_counterexample :
    wOptimizeShape [(⟨0#32, 65536#32, 1#32⟩ : WDim 32), ⟨40000#32, 2#32, 65536#32⟩] = none ∧
      totalSpan ([(⟨0#32, 65536#32, 1#32⟩ : WDim 32), ⟨40000#32, 2#32, 65536#32⟩].map WDim.toDim) = 131071 := by
  refine ⟨?_, by decide +kernel⟩
  show wDynamicOptimizeShape _ = none
  unfold wDynamicOptimizeShape
  have : bubbleSort wDimLt [(⟨0#32, 65536#32, 1#32⟩ : WDim 32), ⟨40000#32, 2#32, 65536#32⟩] =
      [⟨0#32, 65536#32, 1#32⟩, ⟨40000#32, 2#32, 65536#32⟩] := by
    simp [bubbleSort, bubbleInner, wDimLt]
  rw [this, wFuseLoop]
  decide +kernel

/-- C81, fails in general: `can_fuse` multiplies the stride by the extent, not by the extent less one, so it
overflows for a dim all of whose offsets are representable. -/
theorem C81_can_fuse_counterexample :
    ∃ s : List (WDim 64), NonNeg (s.map WDim.toDim) ∧ totalSpan (s.map WDim.toDim) < 2 ^ 63 ∧
      wOptimizeShape s = none := by
  refine ⟨[⟨0#64, 1#64, 1#64⟩, ⟨0#64, 2#64, BitVec.ofNat 64 (2 ^ 62)⟩, ⟨0#64, 1#64, BitVec.ofNat 64 (2 ^ 62 + 1)⟩],
    ?_, ?_, ?_⟩
  · unfold NonNeg; decide
  · decide +kernel
  · show wDynamicOptimizeShape _ = none
    unfold wDynamicOptimizeShape
    have : bubbleSort wDimLt [(⟨0#64, 1#64, 1#64⟩ : WDim 64), ⟨0#64, 2#64, BitVec.ofNat 64 (2 ^ 62)⟩,
        ⟨0#64, 1#64, BitVec.ofNat 64 (2 ^ 62 + 1)⟩] = [⟨0#64, 1#64, 1#64⟩, ⟨0#64, 2#64, BitVec.ofNat 64 (2 ^ 62)⟩,
        ⟨0#64, 1#64, BitVec.ofNat 64 (2 ^ 62 + 1)⟩] := by
      simp [bubbleSort, bubbleInner, wDimLt, BitVec.slt]
    rw [this, wFuseLoop]
    have h1 : wCanFuse (⟨0#64, 1#64, 1#64⟩ : WDim 64) ⟨0#64, 2#64, BitVec.ofNat 64 (2 ^ 62)⟩ = some false := by
      decide +kernel
    rw [h1]
    simp only [Option.bind_eq_bind, Option.bind_some, Bool.false_eq_true, if_false]
    rw [wFuseLoop]
    decide +kernel

/-! ### Splits -/

/-- C81: iterating `split(v, n)` does not overflow if the end of `v` plus the inner extent is
representable; the intervals are consecutive, non-empty, and at most `n` wide. -/
theorem C81_split (hw : 2 ≤ w) (v : WIvl w) (n : BitVec w) (hn : 0 < n.toInt) (hv : 0 ≤ v.extent.toInt)
    (hfit : v.min.toInt + v.extent.toInt + min n.toInt v.extent.toInt < 2 ^ (w - 1))
    (hmin : v.extent.toInt = 0 → -2 ^ (w - 1) < v.min.toInt) :
    ∃ r l, wSplitDynamic v n = some r ∧ r.iterate = some l ∧
      Tiles v.min.toInt (l.map WIvl.toInterval) (v.min.toInt + v.extent.toInt) ∧
      (∀ i ∈ l, i.extent.toInt ≤ n.toInt) ∧ (∀ i ∈ l.dropLast, i.extent.toInt = n.toInt) := by
  have f0 := fit_toInt v.min
  unfold Fit at f0
  obtain ⟨mx, hmx, vmx⟩ := wIvl_max_val (v := v) hw (by unfold Fit; omega) (by unfold Fit; omega)
  obtain ⟨en, hen, ven⟩ := wval_add (a := mx) (b := 1#w) vmx (one_toInt hw) (by unfold Fit; omega)
  have hmin' : (if n.slt v.extent then n else v.extent).toInt = min n.toInt v.extent.toInt := by
    split
    · rename_i h; rw [BitVec.slt_iff_toInt_lt] at h; omega
    · rename_i h; rw [BitVec.slt_iff_toInt_lt] at h; omega
  generalize hk : (if n.slt v.extent then n else v.extent) = k at hmin'
  have hr : wSplitDynamic v n = some ⟨⟨⟨v.min, k⟩, mx⟩, ⟨⟨en, 0#w⟩, mx⟩, WSplitIt.addDynamic⟩ := by
    unfold wSplitDynamic
    rw [hmx]
    simp only [Option.bind_eq_bind, Option.bind_some, hen, hk]
  obtain ⟨L, hL, hT, hle, hdl, -⟩ := C24_partition v.toInterval n.toInt hn hv
  have hX : v.toInterval.max = mx.toInt := vmx.symm
  obtain ⟨l, hl, hl'⟩ := wLoop_sim (r := ⟨⟨⟨v.min, k⟩, mx⟩, ⟨⟨en, 0#w⟩, mx⟩, WSplitIt.addDynamic⟩)
    (R := splitDynamic v.toInterval n.toInt)
    (fun it => it.outerMax = mx ∧ it.i.extent.toInt ≤ min n.toInt v.extent.toInt ∧
      (it.i.min.toInt = mx.toInt + 1 ∨ 0 < it.i.extent.toInt ∧ it.i.min.toInt + it.i.extent.toInt ≤ mx.toInt + 1))
    (by show en.toInt = v.toInterval.max + 1; rw [hX, ven, vmx])
    (by
      rintro it ⟨h1, h2, h3⟩ hne
      have hne : it.i.min.toInt ≠ mx.toInt + 1 := by
        have : (splitDynamic v.toInterval n.toInt).end_.i.min = v.toInterval.max + 1 := rfl
        rw [this, hX] at hne; exact hne
      obtain ⟨h3, h4⟩ := h3.resolve_left hne
      obtain ⟨it', e1, e2, e3, e4, e5⟩ := wAddDynamic_eq hw (it := it) (n := min n.toInt v.extent.toInt) h3 h2
        (by rw [h1]; exact h4) (by rw [h1]; omega)
      refine ⟨it', e1, e2, by rw [e3, h1], e4, ?_⟩
      rw [h1] at e5
      exact e5)
    L ⟨⟨v.min, k⟩, mx⟩ ⟨rfl, by rw [hmin'], by
      by_cases h0 : v.extent.toInt = 0
      · left; dsimp only; omega
      · right; dsimp only; omega⟩
    (by
      rw [← hL]
      unfold SplitResult.iterate splitDynamic WSplitIt.toSplitIt
      rw [imin_eq]
      congr 2
      · unfold WIvl.toInterval
        rw [hmin'])
  refine ⟨_, l, hr, hl, by rw [hl']; exact hT, ?_, ?_⟩
  · intro i hi
    exact hle i.toInterval (by rw [← hl']; exact List.mem_map_of_mem hi)
  · intro i hi
    exact hdl i.toInterval (by rw [← hl', ← List.map_dropLast]; exact List.mem_map_of_mem hi)

/-- C81: `size()` of such a split is the ceiling of `extent / n`, if also the extent plus the inner extent
is representable. -/
theorem C81_split_size (hw : 2 ≤ w) (v : WIvl w) (n : BitVec w) (hn : 0 < n.toInt) (hv : 0 ≤ v.extent.toInt)
    (hfit : v.min.toInt + v.extent.toInt < 2 ^ (w - 1)) (hmin : v.extent.toInt = 0 → -2 ^ (w - 1) < v.min.toInt)
    (hsz : v.extent.toInt + min n.toInt v.extent.toInt ≤ 2 ^ (w - 1)) :
    ∃ r q, wSplitDynamic v n = some r ∧ r.size = some q ∧ IsCeilDiv q.toInt v.extent.toInt n.toInt := by
  have f0 := fit_toInt v.min
  unfold Fit at f0
  obtain ⟨mx, hmx, vmx⟩ := wIvl_max_val (v := v) hw (by unfold Fit; omega) (by unfold Fit; omega)
  obtain ⟨en, hen, ven⟩ := wval_add (a := mx) (b := 1#w) vmx (one_toInt hw) (by unfold Fit; omega)
  have hmin' : (if n.slt v.extent then n else v.extent).toInt = min n.toInt v.extent.toInt := by
    split
    · rename_i h; rw [BitVec.slt_iff_toInt_lt] at h; omega
    · rename_i h; rw [BitVec.slt_iff_toInt_lt] at h; omega
  generalize hk : (if n.slt v.extent then n else v.extent) = k at hmin'
  have hr : wSplitDynamic v n = some ⟨⟨⟨v.min, k⟩, mx⟩, ⟨⟨en, 0#w⟩, mx⟩, WSplitIt.addDynamic⟩ := by
    unfold wSplitDynamic
    rw [hmx]
    simp only [Option.bind_eq_bind, Option.bind_some, hen, hk]
  obtain ⟨L, -, -, -, -, hs, hc⟩ := C24_partition v.toInterval n.toInt hn hv
  suffices h : ∃ q, WSplit.size ⟨⟨⟨v.min, k⟩, mx⟩, ⟨⟨en, 0#w⟩, mx⟩, WSplitIt.addDynamic⟩ = some q ∧
      q.toInt = (splitDynamic v.toInterval n.toInt).size by
    obtain ⟨q, h1, h2⟩ := h
    refine ⟨_, q, hr, h1, ?_⟩
    rw [h2, hs]; exact hc
  unfold WSplit.size WSplitIt.sub SplitResult.size SplitIt.sub splitDynamic
  rw [imin_eq]
  dsimp only
  by_cases h0 : v.extent.toInt = 0
  · refine ⟨0#w, ?_, ?_⟩
    · rw [if_neg]
      rw [BitVec.slt_iff_toInt_lt, BitVec.toInt_zero]; omega
    · rw [if_neg]
      · simp
      · show ¬ min n.toInt v.extent.toInt > 0
        omega
  · rw [if_pos (by rw [BitVec.slt_iff_toInt_lt, BitVec.toInt_zero]; omega)]
    rw [if_pos (show min n.toInt v.toInterval.extent > 0 by show min n.toInt v.extent.toInt > 0; omega)]
    have z : (0#w).toInt = 0 := BitVec.toInt_zero
    obtain ⟨a, ha, va⟩ := wIvl_max_val (v := ⟨en, 0#w⟩) hw (by unfold Fit; rw [z]; dsimp only; omega)
      (by unfold Fit; rw [z]; dsimp only; omega)
    rw [z] at va
    dsimp only at va
    obtain ⟨b, hb, vb⟩ := wval_sub (a := a) (b := v.min) va rfl (by unfold Fit; omega)
    obtain ⟨c, hc, vc⟩ := wval_add (a := b) (b := k) vb hmin' (by unfold Fit; omega)
    obtain ⟨d, hd, vd⟩ := wval_sub (a := c) (b := 0#w) vc z (by unfold Fit; omega)
    obtain ⟨q, hq, vq⟩ := cdiv_val hw (a := d) (b := k) vd hmin' (by omega) (by omega)
    refine ⟨q, ?_, ?_⟩
    · rw [ha]
      simp only [Option.bind_eq_bind, Option.bind_some, hb, hc, hd, hq]
    · rw [vq]
      unfold WIvl.toInterval Interval.max
      dsimp only
      congr 1
      omega

/-- C81: iterating `split<N>(v)` does not overflow if the last index of `v` plus `N` is representable; the
intervals are those of unbounded arithmetic. -/
theorem C81_split_static (hw : 2 ≤ w) (v : WIvl w) (e : BitVec w) (he : 0 < e.toInt) (hv : e.toInt ≤ v.extent.toInt)
    (hfit : v.min.toInt + v.extent.toInt + e.toInt ≤ 2 ^ (w - 1)) :
    ∃ r l, wSplitStatic e v = some r ∧ r.iterate = some l ∧ IsCeilDiv l.length v.extent.toInt e.toInt ∧
      (∀ k i, l[k]? = some i → i.extent.toInt = e.toInt ∧
        (k + 1 < l.length → i.min.toInt = v.min.toInt + e.toInt * k) ∧
        (k + 1 = l.length → i.min.toInt = v.min.toInt + v.extent.toInt - e.toInt)) := by
  have f0 := fit_toInt v.min
  unfold Fit at f0
  obtain ⟨mx, hmx, vmx⟩ := wIvl_max_val (v := v) hw (by unfold Fit; omega) (by unfold Fit; omega)
  obtain ⟨en, hen, ven⟩ := wval_add (a := mx) (b := 1#w) vmx (one_toInt hw) (by unfold Fit; omega)
  have hr : wSplitStatic e v = some ⟨⟨⟨v.min, e⟩, mx⟩, ⟨⟨en, e⟩, mx⟩, WSplitIt.addStatic e⟩ := by
    unfold wSplitStatic
    rw [hmx]
    simp only [Option.bind_eq_bind, Option.bind_some, hen]
  obtain ⟨L, hL, -, hc, hI⟩ := C25_intervals v.toInterval e.toInt he hv
  have hX : v.toInterval.max = mx.toInt := vmx.symm
  obtain ⟨l, hl, hl'⟩ := wLoop_sim (r := ⟨⟨⟨v.min, e⟩, mx⟩, ⟨⟨en, e⟩, mx⟩, WSplitIt.addStatic e⟩)
    (R := splitStatic e.toInt v.toInterval)
    (fun it => it.outerMax = mx ∧ it.i.extent = e ∧
      (it.i.min.toInt = mx.toInt + 1 ∨ it.i.min.toInt + e.toInt ≤ mx.toInt + 1))
    (by show en.toInt = v.toInterval.max + 1; rw [hX, ven, vmx])
    (by
      rintro it ⟨h1, h2, h3⟩ hne
      have hne : it.i.min.toInt ≠ mx.toInt + 1 := by
        have : (splitStatic e.toInt v.toInterval).end_.i.min = v.toInterval.max + 1 := rfl
        rw [this, hX] at hne; exact hne
      have h4 := h3.resolve_left hne
      obtain ⟨it', e1, e2, e3, e4, e5⟩ := wAddStatic_eq hw (it := it) he h2
        (by rw [h1]; exact h4) (by rw [h1]; omega)
      refine ⟨it', e1, e2, by rw [e4, h1], e3, ?_⟩
      rw [h1] at e5
      exact e5)
    L ⟨⟨v.min, e⟩, mx⟩ ⟨rfl, rfl, by right; dsimp only; omega⟩
    (by
      rw [← hL]
      unfold SplitResult.iterate splitStatic WSplitIt.toSplitIt
      rw [hX]
      rfl)
  subst hl'
  rw [List.length_map] at hc hI
  refine ⟨_, l, hr, hl, hc, ?_⟩
  intro k i hi
  exact hI k i.toInterval (by rw [List.getElem?_map, hi]; rfl)

/-- C81, fails near the end of the range of `index_t`: the interval is representable, including its end, but
splitting it overflows in the step to its end. -/
theorem C81_split_counterexample :
    ∃ v : WIvl 64, v.min.toInt + v.extent.toInt = 2 ^ 63 - 1 ∧ v.extent.toInt = 8 ∧
      ∃ r, wSplitDynamic v 8#64 = some r ∧ r.iterate = none := by
  refine ⟨⟨BitVec.ofNat 64 (2 ^ 63 - 9), 8#64⟩, by decide +kernel, by decide +kernel, _, rfl, ?_⟩
  unfold WSplit.iterate
  rw [WSplit.loop]
  decide +kernel

/-! ### Z-order -/

/-- C81: a z-order traversal of a box with extents of at most a quarter of the range of `index_t` does not
overflow: it visits each index of the box once, in the order of the curve. -/
theorem C81_z_order (hw : 3 ≤ w) {n : Nat} (extents : Fin (n + 1) → BitVec w)
    (hpos : ∀ d, 0 < (extents d).toInt) (hfit : ∀ d, (extents d).toInt ≤ 2 ^ (w - 2)) :
    ∃ l, wForEachIndexInZOrder extents = some l ∧
      (∀ p : Fin (n + 1) → Int, p ∈ l.map wInts ↔ ∀ d, 0 ≤ p d ∧ p d < (extents d).toInt) ∧
      (l.map wInts).Pairwise MortonLt := by
  obtain ⟨l, h1, h2⟩ := wForEachIndexInZOrder_same hw extents hfit
  obtain ⟨L, k1, k2, k3⟩ := forEachIndexInZOrder_ok (wInts extents) hpos
  rw [k1] at h2
  obtain rfl : L = l.map wInts := by simpa using h2
  exact ⟨l, h1, k2, k3⟩

/-- C81: beyond that, every z-order traversal overflows (or does not end). -/
theorem C81_z_order_overflow (hw : 3 ≤ w) {n : Nat} (extents : Fin (n + 1) → BitVec w) (d : Fin (n + 1))
    (h : 2 ^ (w - 2) < (extents d).toInt) : wForEachIndexInZOrder extents = none := by
  have : wNextPowerOfTwo (wMaxElement extents) = none := by
    refine wNextPowerOfTwoLoop_none hw ?_ (w - 2) 0 1#w (by omega) (by rw [one_toInt (by omega)]; rfl)
    rw [wMaxElement_toInt]
    exact lt_of_lt_of_le h (le_maxElement (wInts extents) d)
  unfold wForEachIndexInZOrder
  rw [this]; rfl

/-! ### Concrete cases -/

/-- A crop of two rows, of 16 columns each, out of a 32-bit image of 1000 by 1000: rows 500 and 501. -/
example : FuseFits 32 [⟨0, 16, 1⟩, ⟨500, 2, 1000⟩] :=
  ⟨by decide, by decide +kernel, by decide +kernel, by decide +kernel⟩

example : wFuse (⟨3#32, 16#32, 1#32⟩ : WDim 32) ⟨500#32, 2#32, 16#32⟩ = some ⟨8003#32, 32#32, 1#32⟩ := by
  decide +kernel

example : wFuse (⟨0#32, 65536#32, 1#32⟩ : WDim 32) ⟨40000#32, 2#32, 65536#32⟩ = none := by decide +kernel

example : InsideOf [⟨0, 10, 1⟩, ⟨0, 10, 10⟩] [⟨2, 3, 1⟩, ⟨4, 5, 3⟩] ∧
    startReach [⟨0, 10, 1⟩, ⟨0, 10, 10⟩] [⟨2, 3, 1⟩, ⟨4, 5, 3⟩] = 42 := by
  refine ⟨?_, by decide +kernel⟩
  simp [InsideOf]

example : wFlatOffset [(⟨0#32, 10#32, 1#32⟩ : WDim 32), ⟨0#32, 10#32, 10#32⟩] [2#32, 4#32] = some 42#32 := by
  decide +kernel

example : wNextPowerOfTwo (5#64) = some 8#64 := by
  unfold wNextPowerOfTwo
  rw [wNextPowerOfTwoLoop, if_pos (by decide)]
  have h1 : cmul 1#64 2#64 = some 2#64 := by decide +kernel
  have h2 : cmul 2#64 2#64 = some 4#64 := by decide +kernel
  have h3 : cmul 4#64 2#64 = some 8#64 := by decide +kernel
  rw [h1]
  simp only [Option.bind_eq_bind, Option.bind_some]
  rw [wNextPowerOfTwoLoop, if_pos (by decide), h2]
  simp only [Option.bind_eq_bind, Option.bind_some]
  rw [wNextPowerOfTwoLoop, if_pos (by decide), h3]
  simp only [Option.bind_eq_bind, Option.bind_some]
  rw [wNextPowerOfTwoLoop, if_neg (by decide)]

/-- `split<5>` of `[0, 12)`: the second step moves the interval back from 10 to 7. -/
example : WSplitIt.addStatic 5#64 ⟨⟨5#64, 5#64⟩, 11#64⟩ 1#64 = some ⟨⟨7#64, 5#64⟩, 11#64⟩ := by decide +kernel

example : WSplitIt.addDynamic (⟨⟨5#64, 5#64⟩, 11#64⟩ : WSplitIt 64) 1#64 = some ⟨⟨10#64, 2#64⟩, 11#64⟩ := by
  decide +kernel

end Nda
