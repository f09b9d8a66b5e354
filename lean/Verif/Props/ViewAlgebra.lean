import Verif.Props.Views
import Verif.Props.Image
import Verif.Spec.ViewAlgebra
/-
C64: crops of crops, transposes of transposes and transposes of crops are what one would write in one step.
-/
namespace Nda
open Spec

theorem keptRank_cons {a : Arg} {as : List Arg} (h : ∀ i, a ≠ .idx i) : keptRank (a :: as) = keptRank as + 1 := by
  cases a with
  | idx i => exact absurd rfl (h i)
  | _ => rfl

theorem thenArgs_length : ∀ (as bs : List Arg), bs.length = keptRank as → (thenArgs as bs).length = as.length
  | [], _, _ => by simp [thenArgs]
  | a :: as, bs, h => by
    cases a with
    | idx i => simp [thenArgs, thenArgs_length as bs h]
    | _ =>
      obtain ⟨b, bs, rfl⟩ := List.exists_cons_of_length_eq_add_one h
      have := thenArgs_length as bs (by simpa [keptRank] using h)
      cases b <;> simp [thenArgs, this]

/-- One dim of `thenArgs`. -/
theorem thenArgs_kept {a b : Arg} (h : ∀ i, a ≠ .idx i) (as bs : List Arg) :
    thenArgs (a :: as) (b :: bs) = (if b = .all then a else b) :: thenArgs as bs := by
  cases a with
  | idx i => exact absurd rfl (h i)
  | _ => cases b <;> simp [thenArgs]

theorem crop_kept {a : Arg} (h : ∀ i, a ≠ .idx i) (d : Dim) (s : Shape) (as : List Arg) :
    Shape.crop (d :: s) (a :: as) = a.rangeWithStride d :: Shape.crop s as := by
  cases a with
  | idx i => exact absurd rfl (h i)
  | _ => rw [crop_cons]; rfl

theorem crop_index (i : Int) (d : Dim) (s : Shape) (as : List Arg) :
    Shape.crop (d :: s) (.idx i :: as) = Shape.crop s as := by
  rw [crop_cons]; rfl

theorem crop_crop_shape : ∀ (s : Shape) (as bs : List Arg), as.length = s.length → bs.length = keptRank as →
    (s.crop as).crop bs = s.crop (thenArgs as bs) ∧
      offsetOf s (Shape.minsOfIntervals as s) +
        offsetOf (s.crop as) (Shape.minsOfIntervals bs (s.crop as)) =
      offsetOf s (Shape.minsOfIntervals (thenArgs as bs) s)
  | [], [], bs, _, hb => by
    obtain rfl : bs = [] := List.length_eq_zero_iff.1 hb
    exact ⟨rfl, rfl⟩
  | [], _ :: _, _, h, _ => by simp at h
  | _ :: _, [], _, h, _ => by simp at h
  | d :: s, a :: as, bs, h, hb => by
    have hl : as.length = s.length := by simpa using h
    by_cases hi : ∃ i, a = .idx i
    · obtain ⟨i, rfl⟩ := hi
      obtain ⟨h1, h2⟩ := crop_crop_shape s as bs hl hb
      have e : thenArgs (.idx i :: as) bs = .idx i :: thenArgs as bs := by rw [thenArgs]
      rw [e, crop_index, crop_index, h1]
      refine ⟨rfl, ?_⟩
      simp only [Shape.minsOfIntervals, List.zipWith_cons_cons, offsetOf] at h2 ⊢
      have : Arg.minOfRange (.idx i) d = i := rfl
      rw [this]
      linarith [h2]
    · have hk : ∀ i, a ≠ .idx i := fun i e => hi ⟨i, e⟩
      rw [keptRank_cons hk] at hb
      obtain ⟨b, bs, rfl⟩ := List.exists_cons_of_length_eq_add_one hb
      have hb' : bs.length = keptRank as := by simpa using hb
      obtain ⟨h1, h2⟩ := crop_crop_shape s as bs hl hb'
      rw [thenArgs_kept hk, crop_kept hk, crop_cons, h1, crop_cons]
      constructor
      · congr 1
        cases b <;> cases a <;> first | exact absurd rfl (hk _) | rfl
      · simp only [Shape.minsOfIntervals, List.zipWith_cons_cons, offsetOf] at h2 ⊢
        have e : (Arg.minOfRange a d - d.min) * d.stride +
            (Arg.minOfRange b (a.rangeWithStride d) - (a.rangeWithStride d).min) * (a.rangeWithStride d).stride =
            (Arg.minOfRange (if b = .all then a else b) d - d.min) * d.stride := by
          cases b <;> cases a <;> first | exact absurd rfl (hk _) | (simp [Arg.minOfRange, Arg.rangeWithStride]) <;> ring
        linarith [h2, e]

/-- C64: cropping or slicing a view that came from cropping or slicing is one crop or slice of the original: the
same pointer and the same shape. -/
theorem C64_crop_crop (a : ArrayRef) (as bs : List Arg) (ha : as.length = a.shape.length)
    (hb : bs.length = keptRank as) :
    (a.crop as).crop bs = a.crop (thenArgs as bs) := by
  obtain ⟨h1, h2⟩ := crop_crop_shape a.shape as bs ha hb
  unfold ArrayRef.crop
  dsimp only
  rw [h1]
  congr 1
  rw [flatOffset_eq, flatOffset_eq, flatOffset_eq, ← h2]
  cases a.base with
  | none => rfl
  | some p => simp [pointerAdd]; ring

/-- C64: if `is_in_range` holds for the arguments of both steps, it holds for those of the single step. -/
theorem C64_crop_crop_check : ∀ (s : Shape) (as bs : List Arg), as.length = s.length → bs.length = keptRank as →
    s.isInRangeArgs as = true → (s.crop as).isInRangeArgs bs = true → s.isInRangeArgs (thenArgs as bs) = true
  | [], [], bs, _, hb, _, _ => by
    obtain rfl : bs = [] := List.length_eq_zero_iff.1 hb
    rfl
  | [], _ :: _, _, h, _, _, _ => by simp at h
  | _ :: _, [], _, h, _, _, _ => by simp at h
  | d :: s, a :: as, bs, h, hb, h1, h2 => by
    have hl : as.length = s.length := by simpa using h
    unfold Shape.isInRangeArgs at h1 h2 ⊢
    rw [all_iff] at h1 h2 ⊢
    simp only [List.zipWith_cons_cons, List.mem_cons, forall_eq_or_imp] at h1
    have ih := C64_crop_crop_check s as
    unfold Shape.isInRangeArgs at ih
    by_cases hi : ∃ i, a = .idx i
    · obtain ⟨i, rfl⟩ := hi
      have e : thenArgs (.idx i :: as) bs = .idx i :: thenArgs as bs := by rw [thenArgs]
      rw [e]
      simp only [List.zipWith_cons_cons, List.mem_cons, forall_eq_or_imp]
      refine ⟨h1.1, ?_⟩
      have := ih bs hl hb (by rw [all_iff]; exact h1.2) (by rw [all_iff]; rw [crop_index] at h2; exact h2)
      rwa [all_iff] at this
    · have hk : ∀ i, a ≠ .idx i := fun i e => hi ⟨i, e⟩
      rw [keptRank_cons hk] at hb
      obtain ⟨b, bs, rfl⟩ := List.exists_cons_of_length_eq_add_one hb
      have hb' : bs.length = keptRank as := by simpa using hb
      rw [crop_kept hk] at h2
      rw [thenArgs_kept hk]
      simp only [List.zipWith_cons_cons, List.mem_cons, forall_eq_or_imp] at h2 ⊢
      refine ⟨?_, ?_⟩
      · have g1 := h1.1
        have g2 := h2.1
        cases b with
        | all => simpa using g1
        | idx x =>
          simp only [reduceCtorEq, if_false]
          cases a with
          | idx i => exact absurd rfl (hk i)
          | all => exact g2
          | _ =>
            simp only [Arg.isInRange, Arg.rangeWithStride, Dim.isInRange_iff, dim_isInRangeI_iff, Dim.toInterval] at g1 g2 ⊢
            omega
        | _ =>
          simp only [reduceCtorEq, if_false]
          cases a with
          | idx i => exact absurd rfl (hk i)
          | all => exact g2
          | _ =>
            simp only [Arg.isInRange, Arg.rangeWithStride, Dim.isInRange_iff, dim_isInRangeI_iff, Dim.toInterval] at g1 g2 ⊢
            omega
      · have := ih bs hl hb' (by rw [all_iff]; exact h1.2) (by rw [all_iff]; exact h2.2)
        rwa [all_iff] at this

/-- C64: of two crops by intervals only the second one matters. -/
theorem C64_crop_twice (a : ArrayRef) (vs ws : List Interval) (hv : vs.length = a.shape.length)
    (hw : ws.length = a.shape.length) :
    (a.crop (vs.map .ivl)).crop (ws.map .ivl) = a.crop (ws.map .ivl) := by
  have hk : ∀ vs : List Interval, keptRank (vs.map .ivl) = vs.length := by
    intro vs
    induction vs with
    | nil => rfl
    | cons v vs ih => simp [keptRank, ih]
  rw [C64_crop_crop a _ _ (by simpa using hv) (by rw [hk]; simp [hv, hw])]
  congr 1
  have : ∀ vs ws : List Interval, vs.length = ws.length → thenArgs (vs.map .ivl) (ws.map .ivl) = ws.map .ivl := by
    intro vs
    induction vs with
    | nil => intro ws h; obtain rfl : ws = [] := (List.length_eq_zero_iff.1 h.symm); rfl
    | cons v vs ih =>
      intro ws h
      obtain ⟨w, ws, rfl⟩ := List.exists_cons_of_length_eq_add_one h.symm
      simp only [List.map_cons, thenArgs]
      rw [ih ws (by simpa using h)]
  exact this vs ws (by omega)

/-- C64: fixing the first coordinate and then the second, or the second and then the first, or both at once. -/
theorem C64_slice_order (p : Option Int) (d0 d1 : Dim) (s : Shape) (i j : Int) :
    let rest := List.replicate s.length Arg.all
    let a : ArrayRef := ⟨p, d0 :: d1 :: s⟩
    (a.crop (.idx i :: .all :: rest)).crop (.idx j :: rest) = a.crop (.idx i :: .idx j :: rest) ∧
      (a.crop (.all :: .idx j :: rest)).crop (.idx i :: rest) = a.crop (.idx i :: .idx j :: rest) := by
  have hk : ∀ n, keptRank (List.replicate n Arg.all) = n := by
    intro n
    induction n with
    | zero => rfl
    | succ n ih => rw [List.replicate_succ, keptRank_cons (by simp), ih]
  have ht : ∀ n, thenArgs (List.replicate n Arg.all) (List.replicate n Arg.all) = List.replicate n Arg.all := by
    intro n
    induction n with
    | zero => rfl
    | succ n ih => rw [List.replicate_succ, thenArgs_kept (by simp), ih]; simp
  dsimp only
  constructor
  · rw [C64_crop_crop _ _ _ (by simp) (by simp [keptRank, hk])]
    simp only [thenArgs, ht]
  · rw [C64_crop_crop _ _ _ (by simp) (by simp [keptRank, hk])]
    simp only [thenArgs, ht]

/-! ### Transposes -/

theorem reorder_reorder (s : Shape) (P Q : List Nat) (hQ : ∀ k ∈ Q, k < P.length) :
    (s.reorder P).reorder Q = s.reorder (Q.map fun k => P.getD k 0) := by
  unfold Shape.reorder
  rw [List.map_map]
  refine List.map_congr_left fun k hk => ?_
  have h := hQ k hk
  simp [List.getD_eq_getElem?_getD, List.getElem?_eq_getElem h, List.getElem?_map]

theorem transpose_full (s : Shape) {P : List Nat} (hP : P.length = s.length) : s.transpose P = s.reorder P := by
  unfold Shape.transpose
  rw [List.drop_eq_nil_of_le (by omega), List.append_nil]

theorem reorder_length (s : Shape) (P : List Nat) : List.length (s.reorder P) = P.length := by
  simp [Shape.reorder]

/-- C64: transposing by `P` and then by `Q` is transposing by the composition. -/
theorem C64_transpose_transpose (a : ArrayRef) (P Q : List Nat) (hP : P.Perm (List.range a.shape.length))
    (hQ : Q.Perm (List.range a.shape.length)) (hk : ∀ d ∈ a.shape, Known d) :
    (a.transpose P).transpose Q = a.transpose (Q.map fun k => P.getD k 0) := by
  have hPl : P.length = a.shape.length := by rw [hP.length_eq, List.length_range]
  have hQl : Q.length = a.shape.length := by rw [hQ.length_eq, List.length_range]
  have hPr : P.Perm (List.range P.length) := by rw [hPl]; exact hP
  have hc : (Q.map fun k => P.getD k 0).Perm (List.range a.shape.length) := by
    refine (List.Perm.map _ hQ).trans ?_
    rw [← hPl, map_range_getD]
    exact hPr
  have e1 := (C22_transpose_ref a P hP hk).1
  have hsl : List.length (a.shape.transpose P) = a.shape.length := by
    rw [transpose_full _ hPl, reorder_length, hPl]
  have hk' : ∀ d ∈ (a.transpose P).shape, Known d := by
    rw [e1]
    intro d hd
    exact hk d ((transpose_shape_perm hPr (by omega)).mem_iff.1 hd)
  have e2 := (C22_transpose_ref (a.transpose P) Q (by rw [e1]; dsimp only; rw [hsl]; exact hQ) hk').1
  rw [e2, (C22_transpose_ref a _ hc hk).1, e1]
  dsimp only
  congr 1
  rw [transpose_full _ (by rw [hsl, hQl]), transpose_full _ hPl, transpose_full _ (by simp [hQl]),
    reorder_reorder]
  intro k hk
  rw [hPl]
  exact List.mem_range.1 (hQ.mem_iff.1 hk)

/-- C64: transposing back restores the ref. -/
theorem C64_transpose_back (a : ArrayRef) (P Q : List Nat) (hP : P.Perm (List.range a.shape.length))
    (hQ : Q.Perm (List.range a.shape.length)) (hk : ∀ d ∈ a.shape, Known d)
    (hinv : Q.map (fun k => P.getD k 0) = List.range a.shape.length) :
    (a.transpose P).transpose Q = a := by
  rw [C64_transpose_transpose a P Q hP hQ hk, hinv, (C22_transpose_ref a _ (List.Perm.refl _) hk).1]
  cases a with
  | mk b s =>
    dsimp only
    rw [transpose_full _ (by simp)]
    congr 1
    exact map_range_getD s default

theorem crop_map (s : Shape) (args : List Arg) (h : args.length = s.length) (hn : NoIndex args) :
    s.crop args = List.zipWith Arg.rangeWithStride args s := by
  induction s generalizing args with
  | nil => rw [List.length_eq_zero_iff.1 h]; rfl
  | cons d s ih =>
    cases args with
    | nil => simp at h
    | cons a args =>
      rw [crop_kept (fun i e => hn i (by rw [e]; simp)), List.zipWith_cons_cons,
        ih args (by simpa using h) (fun i hi => hn i (List.mem_cons_of_mem _ hi))]

theorem getD_zipWith {α β γ : Type} (f : α → β → γ) (l : List α) (m : List β) (x : α) (y : β) (z : γ) (k : Nat)
    (hl : k < l.length) (hm : k < m.length) :
    (List.zipWith f l m).getD k z = f (l.getD k x) (m.getD k y) := by
  rw [List.getD_eq_getElem _ _ (by simp; omega), List.getD_eq_getElem _ _ hl, List.getD_eq_getElem _ _ hm,
    List.getElem_zipWith]

/-- C64: cropping and then transposing is transposing and then cropping by the permuted arguments. -/
theorem C64_crop_transpose (a : ArrayRef) (args : List Arg) (P : List Nat) (hl : args.length = a.shape.length)
    (hn : NoIndex args) (hP : P.Perm (List.range a.shape.length)) (hk : ∀ d ∈ a.shape, Known d) :
    (a.crop args).transpose P = (a.transpose P).crop (P.map fun k => args.getD k .all) := by
  have hPl : P.length = a.shape.length := by rw [hP.length_eq, List.length_range]
  have hlt : ∀ k ∈ P, k < a.shape.length := fun k h => List.mem_range.1 (hP.mem_iff.1 h)
  have hcs : (a.crop args).shape = List.zipWith Arg.rangeWithStride args a.shape := crop_map _ _ hl hn
  have hcl : (a.crop args).shape.length = a.shape.length := by rw [hcs]; simp [hl]
  have hkc : ∀ d ∈ (a.crop args).shape, Known d := by
    rw [hcs]
    intro d hd
    obtain ⟨i, hi, rfl⟩ := List.getElem_of_mem hd
    rw [List.getElem_zipWith]
    have hi2 : i < a.shape.length := by simp at hi; exact hi.2
    have := hk a.shape[i] (List.getElem_mem (by simp at hi; exact hi.2))
    cases args[i]'(by simp at hi; exact hi.1) <;> exact this
  have hn' : NoIndex (P.map fun k => args.getD k .all) := by
    intro i hi
    obtain ⟨k, hkP, e⟩ := List.mem_map.1 hi
    have := hlt k hkP
    rw [List.getD_eq_getElem _ _ (by omega)] at e
    exact hn i (by rw [← e]; exact List.getElem_mem _)
  rw [(C22_transpose_ref _ P (by rw [hcl]; exact hP) hkc).1, (C22_transpose_ref a P hP hk).1]
  unfold ArrayRef.crop
  dsimp only
  rw [transpose_full a.shape hPl]
  congr 1
  · congr 1
    rw [flatOffset_eq, flatOffset_eq]
    have e : Shape.minsOfIntervals (P.map fun k => args.getD k .all) (a.shape.reorder P) =
        P.map fun k => (Shape.minsOfIntervals args a.shape).getD k 0 := by
      unfold Shape.minsOfIntervals Shape.reorder
      rw [List.zipWith_map, List.zipWith_self]
      refine List.map_congr_left fun k hkP => ?_
      rw [getD_zipWith _ _ _ .all default 0 k (by rw [hl]; exact hlt k hkP) (hlt k hkP)]
    rw [e]
    exact (perm_offset hP (by simp [Shape.minsOfIntervals, hl])).symm
  · rw [crop_map _ _ hl hn, transpose_full _ (by simp [hPl, hl]), crop_map _ _ (by simp [reorder_length]) hn']
    unfold Shape.reorder
    rw [List.zipWith_map, List.zipWith_self]
    refine List.map_congr_left fun k hkP => ?_
    rw [getD_zipWith _ _ _ .all default default k (by rw [hl]; exact hlt k hkP) (hlt k hkP)]

/-! ### Images and reinterpretation -/

/-- C64: cropping an image twice is cropping it once to the intersection of the rectangles. -/
theorem C64_image_crop (im : ArrayRef) (dx dy dc : Dim) (hs : im.shape = [dx, dy, dc])
    (hk : ∀ d ∈ im.shape, Known d) (x0 y0 x1 y1 u0 v0 u1 v1 : Int) :
    cropImage (cropImage im x0 y0 x1 y1 .crop) u0 v0 u1 v1 .crop =
      cropImage im (max x0 u0) (max y0 v0) (min x1 u1) (min y1 v1) .crop := by
  obtain ⟨base, s⟩ := im
  dsimp only at hs hk
  subst hs
  have h1 : Known dx := hk dx (by simp)
  have h2 : Known dy := hk dy (by simp)
  have h3 : Known dc := hk dc (by simp)
  have hr : ∀ (a b c d : Int), Shape.resolve [⟨a, b, dx.stride⟩, ⟨c, d, dy.stride⟩, dc] =
      [⟨a, b, dx.stride⟩, ⟨c, d, dy.stride⟩, dc] := by
    intro a b c d
    refine resolve_of_known ?_
    simp only [List.mem_cons, List.not_mem_nil, or_false, forall_eq_or_imp, forall_eq]
    exact ⟨h1, h2, h3⟩
  unfold cropImage ArrayRef.make cropImageShape
  dsimp only
  simp only [hr]
  simp only [imax_eq, imin_eq, Dim.max]
  congr 1
  · cases base with
    | none => rfl
    | some b =>
      simp only [pointerAdd, Option.map_some, flatOffset_eq, offsetOf, Option.some.injEq]
      have e1 : max u0 (max x0 dx.min) = max (max x0 u0) dx.min := by omega
      have e2 : max v0 (max y0 dy.min) = max (max y0 v0) dy.min := by omega
      rw [e1, e2]
      ring
  · simp only [List.cons.injEq, Dim.mk.injEq, and_true]
    refine ⟨⟨by omega, by omega⟩, by omega, by omega⟩

/-- C64: `reinterpret_shape` twice is once with the sum of the offsets. -/
theorem C64_reinterpret (a : ArrayRef) (s t : Shape) (m n : Int) :
    (a.reinterpretShape s m).reinterpretShape t n = a.reinterpretShape t (m + n) := by
  unfold ArrayRef.reinterpretShape ArrayRef.make
  cases a.base with
  | none => rfl
  | some b => simp; ring

/-! ### Examples -/

/-- A crop of x to [5, 9), then a slice at y = 3. -/
example : thenArgs [.ivl (range 5 9), .all] [.all, .idx 3] = [.ivl (range 5 9), .idx 3] := by decide
example : ((ArrayRef.mk (some 100) [⟨4, 10, 1⟩, ⟨0, 6, 10⟩]).crop [.ivl (range 5 9), .all]).crop [.all, .idx 3] =
    ⟨some 131, [⟨5, 4, 1⟩]⟩ := by decide
/-- The second crop may be larger than the first one: the pointer and the shape are those of the second one, and
nothing checks it; `is_in_range` would have said that it is not part of the first crop. -/
example : ((ArrayRef.mk (some 100) [⟨4, 10, 1⟩]).crop [.ivl (range 6 8)]).crop [.ivl (range 5 12)] =
    ⟨some 101, [⟨5, 7, 1⟩]⟩ ∧
    (Shape.crop [⟨4, 10, 1⟩] [.ivl (range 6 8)]).isInRangeArgs [.ivl (range 5 12)] = false := by decide
example : ((ArrayRef.mk (some 100) [⟨4, 10, 1⟩, ⟨0, 6, 10⟩, ⟨1, 2, 60⟩]).transpose [2, 0, 1]).transpose [1, 2, 0] =
    ⟨some 100, [⟨4, 10, 1⟩, ⟨0, 6, 10⟩, ⟨1, 2, 60⟩]⟩ := by decide
example : [1, 2, 0].map (fun k => [2, 0, 1].getD k 0) = List.range 3 := by decide
example : ((ArrayRef.mk (some 100) [⟨4, 10, 1⟩, ⟨0, 6, 10⟩]).crop [.ivl (range 5 9), .all]).transpose [1, 0] =
    ((ArrayRef.mk (some 100) [⟨4, 10, 1⟩, ⟨0, 6, 10⟩]).transpose [1, 0]).crop [.all, .ivl (range 5 9)] := by decide
example : cropImage (cropImage ⟨some 0, [⟨0, 10, 3⟩, ⟨0, 10, 30⟩, ⟨0, 3, 1⟩]⟩ 2 1 8 9 .crop) 4 0 20 5 .crop =
    ⟨some 42, [⟨4, 4, 3⟩, ⟨1, 4, 30⟩, ⟨0, 3, 1⟩]⟩ := by decide

end Nda
