import Verif.Lemmas.Image
/-
C37 (image crop), C38 (chunky image traversal), C39 (matrix traversal).
-/
namespace Nda
open Spec

/-! ### C39 -/

/-- C39: `for_each_index` of a matrix visits each index once, in row major order. -/
theorem C39_indices (di dj : Dim) (h : NonNeg [di, dj]) :
    ∃ tr, matrixForEachIndex [di, dj] = some tr ∧ Enumerates [di, dj] tr ∧ tr.Pairwise RowMajorLt :=
  ⟨_, forEachMatrixIndex_eq h, matrixList_enumerates di dj, matrixList_pairwise di dj⟩

/-- C39: `for_each_value` visits the addresses of those indices in the same order. -/
theorem C39_values (di dj : Dim) (h : NonNeg [di, dj]) (b : Int) :
    ∃ l, Enumerates [di, dj] l ∧ l.Pairwise RowMajorLt ∧
      matrixForEachValue [di, dj] (some b) = some (l.map fun i => b + offsetOf [di, dj] i) := by
  refine ⟨_, matrixList_enumerates di dj, matrixList_pairwise di dj, ?_⟩
  unfold matrixForEachValue
  rw [forEachMatrixIndex_eq h]
  exact accesses_some _ _ _

/-- C39: the order is strict, so the sequence of calls is determined. -/
theorem C39_order_asymm (a b : Index) (h : RowMajorLt a b) : ¬ RowMajorLt b a := by
  obtain ⟨i, j, i', j', rfl, rfl, h⟩ := h
  rintro ⟨k, l, k', l', e, e', h'⟩
  simp only [List.cons.injEq, and_true] at e e'
  omega

/-- A null base is read as soon as the matrix has an element: the shape traits of a matrix, unlike
the default ones, do not check the base. -/
theorem C39_null_base (di dj : Dim) (h : Pos [di, dj]) : matrixForEachValue [di, dj] none = none := by
  unfold matrixForEachValue
  have hn : NonNeg [di, dj] := fun d hd => (h d hd).le
  rw [forEachMatrixIndex_eq hn]
  have h1 : [di.min, dj.min] ∈ matrixList di dj := by
    rw [mem_matrixList]; exact inBox_mins h
  change accesses [di, dj] none (matrixList di dj) = none
  cases hl : matrixList di dj with
  | nil => rw [hl] at h1; cases h1
  | cons a l => rfl

/-- A 2×3 matrix with padded rows and mins `(1, -1)`, based at address 100. -/
example : matrixForEachIndex [⟨1, 2, 4⟩, ⟨-1, 3, 1⟩] =
    some [[1, -1], [1, 0], [1, 1], [2, -1], [2, 0], [2, 1]] := by
  rw [matrixForEachIndex, forEachMatrixIndex_eq (by simp [NonNeg])]; decide
example : matrixForEachValue [⟨1, 2, 4⟩, ⟨-1, 3, 1⟩] (some 100) =
    some [100, 101, 102, 104, 105, 106] := by
  rw [matrixForEachValue, forEachMatrixIndex_eq (by simp [NonNeg])]; decide

/-! ### C38 -/

/-- C38: `for_each_index` of an image visits each index once, `c` fastest, then `x`, then `y`. -/
theorem C38_indices (dx dy dc : Dim) (h : NonNeg [dx, dy, dc]) :
    ∃ tr, forEachImageIndex [dx, dy, dc] = some tr ∧ Enumerates [dx, dy, dc] tr ∧
      tr.Pairwise ImageLt :=
  ⟨_, forEachImageIndex_eq h, imageList_enumerates dx dy dc, imageList_pairwise dx dy dc⟩

/-- C38: the order is strict. -/
theorem C38_order_asymm (a b : Index) (h : ImageLt a b) : ¬ ImageLt b a := by
  obtain ⟨x, y, c, x', y', c', rfl, rfl, h⟩ := h
  rintro ⟨k, l, m, k', l', m', e, e', h'⟩
  simp only [List.cons.injEq, and_true] at e e'
  omega

/-- C38: with a compile-time pixel stride that differs from the number of channels, the values are
visited in the order of the indices. -/
theorem C38_padded (dx dy dc : Dim) (h : NonNeg [dx, dy, dc]) (b : Int) :
    ∃ l, Enumerates [dx, dy, dc] l ∧ l.Pairwise ImageLt ∧
      paddedForEachValue [dx, dy, dc] (some b) = some (l.map fun i => b + offsetOf [dx, dy, dc] i) := by
  refine ⟨_, imageList_enumerates dx dy dc, imageList_pairwise dx dy dc, ?_⟩
  unfold paddedForEachValue
  rw [forEachImageIndex_eq h]
  exact accesses_some _ _ _

/-- C38: the other chunky images visit each element exactly once, on both paths; `l` is any list
containing each in-range index once. -/
theorem C38_values (dx dy dc : Dim) (h : NonNeg [dx, dy, dc]) (hc : dc.stride = 1) (b : Int)
    (l : List Index) (hl : Enumerates [dx, dy, dc] l) :
    ∃ tr, chunkyForEachValue [dx, dy, dc] (some b) = some tr ∧
      tr.Perm (l.map fun i => b + offsetOf [dx, dy, dc] i) := by
  unfold chunkyForEachValue
  dsimp only
  split
  · rename_i hx
    refine ⟨_, rfl, ?_⟩
    rw [fused_eq (by simpa using (beq_iff_eq.1 hx).symm) hc h]
    exact ((imageList_enumerates dx dy dc).perm hl).map _
  · refine ⟨_, rfl, ?_⟩
    exact (forEachValueInOrder_perm _ b).trans (((boxList_enumerates _).perm hl).map _)

/-- C38: on the fused path (pixels without padding) the values come in the order of the indices. -/
theorem C38_fused_order (dx dy dc : Dim) (h : NonNeg [dx, dy, dc]) (hc : dc.stride = 1)
    (hx : dx.stride = dc.extent) (b : Int) :
    ∃ l, Enumerates [dx, dy, dc] l ∧ l.Pairwise ImageLt ∧
      chunkyForEachValue [dx, dy, dc] (some b) = some (l.map fun i => b + offsetOf [dx, dy, dc] i) := by
  refine ⟨_, imageList_enumerates dx dy dc, imageList_pairwise dx dy dc, ?_⟩
  unfold chunkyForEachValue
  simp only [hx, beq_self_eq_true, if_true]
  rw [fused_eq hx hc h]

/-- C38: on the other path `x` is fastest, so values come in another order than indices. -/
theorem C38_general_order (dx dy dc : Dim) (hx : dx.stride ≠ dc.extent) (b : Int) :
    ∃ l, Enumerates [dx, dy, dc] l ∧ l.Pairwise ColexLt ∧
      chunkyForEachValue [dx, dy, dc] (some b) = some (l.map fun i => b + offsetOf [dx, dy, dc] i) := by
  refine ⟨_, boxList_enumerates _, boxList_pairwise _, ?_⟩
  unfold chunkyForEachValue
  dsimp only
  rw [if_neg (by simpa using Ne.symm hx), forEachValueInOrder_eq]

/-- A 2×2 image of 3 channels: contiguous, padded to 4, and with rows that are far apart. -/
example : chunkyForEachValue [⟨1, 2, 3⟩, ⟨0, 2, 10⟩, ⟨0, 3, 1⟩] (some 100) =
    some [100, 101, 102, 103, 104, 105, 110, 111, 112, 113, 114, 115] := by decide +kernel
example : chunkyForEachValue [⟨1, 2, 4⟩, ⟨0, 2, 8⟩, ⟨0, 3, 1⟩] (some 100) =
    some [100, 104, 108, 112, 101, 105, 109, 113, 102, 106, 110, 114] := by decide +kernel
example : paddedForEachValue [⟨1, 2, 4⟩, ⟨0, 2, 8⟩, ⟨0, 3, 1⟩] (some 100) =
    some [100, 101, 102, 104, 105, 106, 108, 109, 110, 112, 113, 114] := by
  rw [paddedForEachValue, forEachImageIndex_eq (by simp [NonNeg])]; decide

/-! ### C37 -/

/-- C37: with `crop_origin::crop` the in-range indices of the result are the in-range indices of the
image inside the rectangle `[x0, x1) × [y0, y1)`, and they denote the same elements. -/
theorem C37_crop (im : ArrayRef) (dx dy dc : Dim) (hs : im.shape = [dx, dy, dc])
    (hk : ∀ d ∈ im.shape, Known d) (x0 y0 x1 y1 x y c : Int) :
    (InBox (cropImage im x0 y0 x1 y1 .crop).shape [x, y, c] ↔
      InBox im.shape [x, y, c] ∧ (x0 ≤ x ∧ x < x1) ∧ (y0 ≤ y ∧ y < y1)) ∧
    (cropImage im x0 y0 x1 y1 .crop).at_ [x, y, c] = im.at_ [x, y, c] := by
  obtain ⟨base, s⟩ := im
  dsimp only at hs hk
  subst hs
  have h1 : Known dx := hk dx (by simp)
  have h2 : Known dy := hk dy (by simp)
  have h3 : Known dc := hk dc (by simp)
  unfold cropImage ArrayRef.at_ ArrayRef.make cropImageShape
  dsimp only
  rw [resolve_of_known (by
    simp only [List.mem_cons, List.not_mem_nil, or_false, forall_eq_or_imp, forall_eq]
    exact ⟨h1, h2, h3⟩)]
  constructor
  · simp only [inBox_cons, imax_eq, imin_eq, Dim.max, InBox, and_true]
    omega
  · cases base with
    | none => rfl
    | some b =>
      simp only [pointerAdd, Option.map_some, flatOffset_eq, offsetOf, Option.some.injEq]
      ring

/-- C37: with `crop_origin::zero` the indices are shifted by the corner of the intersection, so that
they start at 0. -/
theorem C37_zero (im : ArrayRef) (dx dy dc : Dim) (hs : im.shape = [dx, dy, dc])
    (hk : ∀ d ∈ im.shape, Known d) (x0 y0 x1 y1 x y c : Int) :
    (InBox (cropImage im x0 y0 x1 y1 .zero).shape [x, y, c] ↔
      (0 ≤ x ∧ 0 ≤ y) ∧ InBox im.shape [x + max x0 dx.min, y + max y0 dy.min, c] ∧
      x + max x0 dx.min < x1 ∧ y + max y0 dy.min < y1) ∧
    (cropImage im x0 y0 x1 y1 .zero).at_ [x, y, c] =
      im.at_ [x + max x0 dx.min, y + max y0 dy.min, c] := by
  obtain ⟨base, s⟩ := im
  dsimp only at hs hk
  subst hs
  have h1 : Known dx := hk dx (by simp)
  have h2 : Known dy := hk dy (by simp)
  have h3 : Known dc := hk dc (by simp)
  unfold cropImage ArrayRef.at_ ArrayRef.make cropImageShape
  dsimp only
  rw [resolve_of_known (by
    simp only [List.mem_cons, List.not_mem_nil, or_false, forall_eq_or_imp, forall_eq]
    exact ⟨h1, h2, h3⟩)]
  constructor
  · simp only [inBox_cons, imax_eq, imin_eq, Dim.max, InBox, and_true]
    omega
  · cases base with
    | none => rfl
    | some b =>
      simp only [Option.map_some, flatOffset_eq, offsetOf, Option.some.injEq, imax_eq]
      ring

/-- C37: if the rectangle meets the image, the result has no negative extents: it is a proper
non-empty image whenever there are channels. -/
theorem C37_overlap (im : ArrayRef) (dx dy dc : Dim) (hs : im.shape = [dx, dy, dc])
    (hk : ∀ d ∈ im.shape, Known d) (x0 y0 x1 y1 x y c : Int) (o : CropOrigin)
    (h : InBox im.shape [x, y, c]) (hx : x0 ≤ x ∧ x < x1) (hy : y0 ≤ y ∧ y < y1) :
    Pos (cropImage im x0 y0 x1 y1 o).shape := by
  obtain ⟨base, s⟩ := im
  dsimp only at hs hk
  subst hs
  have h1 : Known dx := hk dx (by simp)
  have h2 : Known dy := hk dy (by simp)
  have h3 : Known dc := hk dc (by simp)
  simp only [inBox_cons, InBox, and_true] at h
  unfold cropImage ArrayRef.make cropImageShape
  cases o <;> dsimp only <;> rw [resolve_of_known (by
    simp only [List.mem_cons, List.not_mem_nil, or_false, forall_eq_or_imp, forall_eq]
    exact ⟨h1, h2, h3⟩)] <;>
  · simp only [Pos, List.mem_cons, List.not_mem_nil, or_false, forall_eq_or_imp, forall_eq,
      imax_eq, imin_eq, Dim.max]
    omega

/-- C37: a rectangle outside the image in both directions gives two negative extents, whose product
makes the result look non-empty. -/
theorem C37_disjoint_counterexample : ∃ (im : ArrayRef) (x0 y0 x1 y1 : Int),
    (∀ x y c, InBox im.shape [x, y, c] → ¬ ((x0 ≤ x ∧ x < x1) ∧ (y0 ≤ y ∧ y < y1))) ∧
    (cropImage im x0 y0 x1 y1 .crop).shape.size = 1200 ∧
    (cropImage im x0 y0 x1 y1 .crop).empty = false := by
  refine ⟨⟨some 0, [⟨0, 10, 3⟩, ⟨0, 10, 30⟩, ⟨0, 3, 1⟩]⟩, 30, 30, 40, 40, ?_, by decide +kernel, by decide +kernel⟩
  intro x y c h
  simp only [inBox_cons, InBox] at h
  omega

/-- C37: `slice_channel` is the two-dimensional view of one channel. -/
theorem C37_slice_channel (im : ArrayRef) (dx dy dc : Dim) (hs : im.shape = [dx, dy, dc])
    (channel x y : Int) :
    (sliceChannel im channel).shape = [dx, dy] ∧
    (sliceChannel im channel).at_ [x, y] = im.at_ [x, y, channel] := by
  unfold sliceChannel
  rw [hs]
  dsimp only
  refine ⟨?_, ?_⟩
  · unfold ArrayRef.crop
    rw [hs]; rfl
  · have hl : ([.dm dx, .dm dy, .idx channel] : List Arg).length = im.shape.length := by rw [hs]; rfl
    unfold ArrayRef.at_ ArrayRef.crop pointerAdd
    cases hb : im.base with
    | none => rfl
    | some b =>
      have := crop_offset hl [x, y] rfl
      simp only [Option.map_some, flatOffset_eq, Option.some.injEq]
      simp only [fullIndex] at this
      omega

/-- Crop a chunky 4×3 image to `[-1, 2) × [1, 9)`. -/
example : cropImage ⟨some 100, [⟨0, 4, 3⟩, ⟨0, 3, 12⟩, ⟨0, 3, 1⟩]⟩ (-1) 1 2 9 .crop =
    ⟨some 112, [⟨0, 2, 3⟩, ⟨1, 2, 12⟩, ⟨0, 3, 1⟩]⟩ := by decide +kernel
example : cropImage ⟨some 100, [⟨0, 4, 3⟩, ⟨0, 3, 12⟩, ⟨0, 3, 1⟩]⟩ 2 1 9 9 .zero =
    ⟨some 118, [⟨0, 2, 3⟩, ⟨0, 2, 12⟩, ⟨0, 3, 1⟩]⟩ := by decide +kernel
example : (sliceChannel ⟨some 100, [⟨0, 4, 3⟩, ⟨0, 3, 12⟩, ⟨0, 3, 1⟩]⟩ 2).at_ [1, 2] = some 129 := by
  decide +kernel

end Nda
