import Verif.Spec.ViewChains
import Verif.Props.Static
import Verif.Props.Image
import Verif.Props.ViewAlgebra
/-
Lemmas for chains of views: each step is a view of its operand, and views of views are views.
-/
namespace Nda
open Spec

theorem Spec.ViewOf.refl {s : Shape} (hn : NonNeg s) (hk : ∀ d ∈ s, Known d) : ViewOf s s 0 id :=
  ⟨hn, hk, fun _ h => h, fun _ _ => by simp, fun _ _ _ _ h => h⟩

theorem Spec.ViewOf.trans {s r q : Shape} {o p : Int} {φ ψ : Index → Index} (h : ViewOf s r o φ) (g : ViewOf r q p ψ) :
    ViewOf s q (o + p) (fun j => φ (ψ j)) :=
  ⟨g.nonNeg, g.known, fun j hj => h.inside _ (g.inside j hj),
    fun j hj => by rw [h.offset _ (g.inside j hj), g.offset j hj]; ring,
    fun i j hi hj e => g.inj i j hi hj (h.inj _ _ (g.inside i hi) (g.inside j hj) e)⟩

theorem argsInside_length {s : Shape} {args : List Arg} (h : List.Forall₂ ArgInside s args) :
    args.length = s.length := h.length_eq.symm

theorem argsInside_inRange {s : Shape} {args : List Arg} (h : List.Forall₂ ArgInside s args) :
    ∀ p ∈ List.zip s args, p.2 = Arg.all ∨ Arg.isInRange p.1 p.2 = true := by
  induction h with
  | nil => simp
  | @cons d a s as h0 _ ih =>
    intro p hp
    rw [List.zip_cons_cons, List.mem_cons] at hp
    rcases hp with rfl | hp
    · cases a with
      | idx x => exact Or.inr ((Dim.isInRange_iff d x).2 h0)
      | ivl v => exact Or.inr ((dim_isInRangeI_iff d v).2 h0.2)
      | dm v => exact Or.inr ((dim_isInRangeI_iff d v.toInterval).2 h0.2)
      | all => exact Or.inl rfl
    · exact ih p hp

theorem crop_nonNeg_known {s : Shape} {args : List Arg} (h : List.Forall₂ ArgInside s args) (hn : NonNeg s)
    (hk : ∀ d ∈ s, Known d) : NonNeg (s.crop args) ∧ ∀ d ∈ s.crop args, Known d := by
  induction h with
  | nil => exact ⟨by simp [crop_nil, NonNeg], by simp [crop_nil]⟩
  | @cons d a s as h0 _ ih =>
    obtain ⟨h1, h2⟩ := ih (fun x hx => hn x (by simp [hx])) (fun x hx => hk x (by simp [hx]))
    have h3 := hn d (by simp)
    have h4 : Known d := hk d (by simp)
    rw [crop_cons]
    constructor
    · intro x hx
      rcases List.mem_append.1 hx with hx | hx
      · cases a <;> simp [Arg.skipSlices, Arg.rangeWithStride] at hx <;> subst hx
        · exact h0.1
        · exact h0.1
        · exact h3
      · exact h1 x hx
    · intro x hx
      rcases List.mem_append.1 hx with hx | hx
      · cases a <;> simp [Arg.skipSlices, Arg.rangeWithStride] at hx <;> subst hx
        · exact h4
        · exact h4
        · exact h4
      · exact h2 x hx

theorem fullIndex_inj {args : List Arg} {i j : Index} (hi : i.length = keptRank args) (hj : j.length = keptRank args)
    (e : fullIndex args i = fullIndex args j) : i = j := by
  induction args generalizing i j with
  | nil =>
    rw [List.length_eq_zero_iff.1 hi, List.length_eq_zero_iff.1 hj]
  | cons a as ih =>
    cases a with
    | idx x => exact ih hi hj (by simpa [fullIndex] using e)
    | ivl v =>
      match i, j, hi, hj with
      | x :: i, y :: j, hi, hj =>
        simp only [fullIndex, List.cons.injEq] at e
        rw [e.1, ih (by simpa [keptRank] using hi) (by simpa [keptRank] using hj) e.2]
    | dm v =>
      match i, j, hi, hj with
      | x :: i, y :: j, hi, hj =>
        simp only [fullIndex, List.cons.injEq] at e
        rw [e.1, ih (by simpa [keptRank] using hi) (by simpa [keptRank] using hj) e.2]
    | all =>
      match i, j, hi, hj with
      | x :: i, y :: j, hi, hj =>
        simp only [fullIndex, List.cons.injEq] at e
        rw [e.1, ih (by simpa [keptRank] using hi) (by simpa [keptRank] using hj) e.2]

theorem crop_viewOf {s : Shape} {args : List Arg} (h : List.Forall₂ ArgInside s args) (hn : NonNeg s)
    (hk : ∀ d ∈ s, Known d) :
    ViewOf s (s.crop args) (offsetOf s (Shape.minsOfIntervals args s)) (fullIndex args) := by
  have hl := argsInside_length h
  obtain ⟨h1, h2⟩ := crop_nonNeg_known h hn hk
  have hlen : ∀ j, InBox (s.crop args) j → j.length = keptRank args := fun j hj => by
    rw [inBox_length hj, crop_length hl]
  exact ⟨h1, h2, fun j hj => crop_inBox hl (argsInside_inRange h) j hj,
    fun j hj => (crop_offset hl j (hlen j hj)).symm,
    fun i j hi hj e => fullIndex_inj (hlen i hi) (hlen j hj) e⟩

theorem reorder_viewOf {s : Shape} {is : List Nat} (hlt : ∀ k ∈ is, k < s.length) (hnd : is.Nodup)
    (hpos : ∀ k, k < s.length → k ∉ is → 0 < (s.getD k default).extent) (hn : NonNeg s) (hk : ∀ d ∈ s, Known d) :
    ViewOf s (s.reorder is) 0 (fixDropped s is) := by
  have hlen : ∀ j, InBox (s.reorder is) j → j.length = is.length := fun j hj => by
    rw [inBox_length hj, reorder_length]
  refine ⟨?_, ?_, fun j hj => (reorder_inBox hlt hnd (hlen j hj) hpos).1 hj,
    fun j hj => by rw [reorder_offset hlt hnd (hlen j hj)]; ring, ?_⟩
  · intro d hd
    obtain ⟨k, hk', rfl⟩ := List.mem_map.1 hd
    exact hn _ (getD_mem (hlt k hk'))
  · intro d hd
    obtain ⟨k, hk', rfl⟩ := List.mem_map.1 hd
    exact hk _ (getD_mem (hlt k hk'))
  · intro i j hi hj e
    rw [← reorder_index hlt hnd (hlen i hi), ← reorder_index hlt hnd (hlen j hj), e]

theorem convert_viewOf {s : Shape} {ts : List DimT} (h : convertShapeAssert ts s = true)
    (h' : ∀ d ∈ convertShape ts s, Known d) (hn : NonNeg s) (hk : ∀ d ∈ s, Known d) :
    ViewOf s (convertShape ts s) 0 (fun j => (j ++ (s.drop j.length).map Dim.min).take s.length) := by
  rcases Nat.le_total (List.length s) ts.length with hl | hl
  · obtain ⟨h1, h2⟩ := convertDims_raise hl hk h
    have h1 : convertShape ts s = s ++ (ts.drop (List.length s)).map (fun t => t.convert (t.ofExtent 1)) := h1
    rw [h1] at h' ⊢
    generalize hx : (ts.drop (List.length s)).map (fun t => t.convert (t.ofExtent 1)) = extra at *
    have hb : ∀ j, InBox (s ++ extra) j → ∃ i, InBox s i ∧ j = i ++ extra.map Dim.min := by
      intro j hj
      have hjl := inBox_length hj
      rw [List.length_append] at hjl
      rw [← List.take_append_drop (List.length s) j] at hj
      rw [inBox_append (by rw [List.length_take]; omega)] at hj
      refine ⟨_, hj.1, ?_⟩
      rw [← (inBox_ones h2 _).1 hj.2, List.take_append_drop]
    have hφ : ∀ i, InBox s i → ((i ++ extra.map Dim.min) ++
        (s.drop (i ++ extra.map Dim.min).length).map Dim.min).take s.length = i := by
      intro i hi
      rw [List.append_assoc, ← inBox_length hi, List.take_left']
      rfl
    refine ⟨?_, h', ?_, ?_, ?_⟩
    · intro d hd
      rcases List.mem_append.1 hd with hd | hd
      · exact hn d hd
      · rw [h2 d hd]; decide
    · intro j hj
      obtain ⟨i, hi, rfl⟩ := hb j hj
      rw [hφ i hi]; exact hi
    · intro j hj
      obtain ⟨i, hi, rfl⟩ := hb j hj
      rw [hφ i hi, offsetOf_append (inBox_length hi), offsetOf_mins]; ring
    · intro j j' hj hj' e
      obtain ⟨i, hi, rfl⟩ := hb j hj
      obtain ⟨i', hi', rfl⟩ := hb j' hj'
      rw [hφ i hi, hφ i' hi'] at e
      rw [e]
  · obtain ⟨h1, h2⟩ := convertDims_lower hl hk h
    have h1 : convertShape ts s = s.take ts.length := h1
    rw [h1] at h' ⊢
    have hlen : ∀ j, InBox (s.take ts.length) j → j.length = ts.length := fun j hj => by
      rw [inBox_length hj, List.length_take]; omega
    have hφ : ∀ j, InBox (s.take ts.length) j → (j ++ (s.drop j.length).map Dim.min).take s.length =
        j ++ (s.drop ts.length).map Dim.min := by
      intro j hj
      rw [hlen j hj, List.take_of_length_le]
      rw [List.length_append, List.length_map, List.length_drop, hlen j hj]; omega
    have happ : s = List.take ts.length s ++ List.drop ts.length s := (List.take_append_drop _ _).symm
    refine ⟨fun d hd => hn d (List.mem_of_mem_take hd), h', ?_, ?_, ?_⟩
    · intro j hj
      rw [hφ j hj]
      have := (inBox_append (s := List.take ts.length s) (t := List.drop ts.length s) (i := j)
        (j := (s.drop ts.length).map Dim.min) (inBox_length hj)).2 ⟨hj, (inBox_ones h2 _).2 rfl⟩
      rwa [← happ] at this
    · intro j hj
      rw [hφ j hj]
      have := offsetOf_append (s := List.take ts.length s) (t := List.drop ts.length s) (i := j)
        (j := (s.drop ts.length).map Dim.min) (inBox_length hj)
      rw [← happ, offsetOf_mins] at this
      rw [this]; ring
    · intro i j hi hj e
      rw [hφ i hi, hφ j hj] at e
      exact List.append_cancel_right e

/-- A step makes a view of its operand, whatever the base pointer is. -/
theorem viewOp_step {s : Shape} {op : ViewOp} (hn : NonNeg s) (hk : ∀ d ∈ s, Known d) (hok : ViewOpOk s op) :
    ∃ r off, (∀ base, op.apply ⟨base, s⟩ = ⟨base.map (· + off), r⟩) ∧ ViewOf s r off (origIndex s op) := by
  cases op with
  | crop args =>
    refine ⟨_, _, fun base => ?_, crop_viewOf hok hn hk⟩
    simp only [ViewOp.apply, ArrayRef.crop, pointerAdd, flatOffset_eq]
  | transpose is =>
    have hok : is.Perm (List.range s.length) := hok
    have hl : is.length = s.length := by rw [hok.length_eq, List.length_range]
    refine ⟨s.reorder is, 0, fun base => ?_, reorder_viewOf (fun k hk => List.mem_range.1 (hok.mem_iff.1 hk))
      (hok.nodup_iff.2 List.nodup_range) (fun k hk hm => absurd (hok.mem_iff.2 (List.mem_range.2 hk)) hm) hn hk⟩
    have := (C22_transpose_ref ⟨base, s⟩ is hok hk).1
    simp only [ViewOp.apply]
    rw [this, transpose_full _ hl]
    cases base <;> simp
  | reorder is =>
    obtain ⟨hnd, hlt, hpos⟩ := hok
    have hv := reorder_viewOf hlt hnd hpos hn hk
    refine ⟨s.reorder is, 0, fun base => ?_, hv⟩
    simp only [ViewOp.apply, ArrayRef.reorder, ArrayRef.reinterpretShape, ArrayRef.make]
    rw [resolve_of_known hv.known]
  | cropImage x0 y0 x1 y1 o =>
    obtain ⟨dx, dy, dc, rfl, hx, hy⟩ := hok
    have h1 : Known dx := hk dx (by simp)
    have h2 : Known dy := hk dy (by simp)
    have h3 : Known dc := hk dc (by simp)
    have h4 := hn dc (by simp)
    cases o with
    | crop =>
      refine ⟨[⟨max x0 dx.min, min x1 (dx.min + dx.extent) - max x0 dx.min, dx.stride⟩,
        ⟨max y0 dy.min, min y1 (dy.min + dy.extent) - max y0 dy.min, dy.stride⟩, dc],
        (max x0 dx.min - dx.min) * dx.stride + (max y0 dy.min - dy.min) * dy.stride, fun base => ?_, ?_⟩
      · simp only [ViewOp.apply, cropImage, ArrayRef.make, cropImageShape, imax_eq, imin_eq, Dim.max, flatOffset_eq,
          pointerAdd, Option.map_map]
        rw [resolve_of_known (by
          simp only [List.mem_cons, List.not_mem_nil, or_false, forall_eq_or_imp, forall_eq]
          exact ⟨h1, h2, h3⟩)]
        have e1 : dx.min + dx.extent - 1 + 1 = dx.min + dx.extent := by omega
        have e2 : dy.min + dy.extent - 1 + 1 = dy.min + dy.extent := by omega
        rw [e1, e2]
        congr 1
        cases base with
        | none => rfl
        | some b =>
          simp only [Option.map_some, Function.comp, offsetOf, Option.some.injEq]
          ring
      · refine ⟨?_, ?_, ?_, ?_, fun _ _ _ _ e => e⟩
        · simp only [NonNeg, List.mem_cons, List.not_mem_nil, or_false, forall_eq_or_imp, forall_eq]
          omega
        · simp only [List.mem_cons, List.not_mem_nil, or_false, forall_eq_or_imp, forall_eq]
          exact ⟨h1, h2, h3⟩
        · intro j hj
          match j, hj with
          | [x, y, c], hj =>
            simp only [InBox, and_true, origIndex] at hj ⊢
            omega
        · intro j hj
          match j, hj with
          | [x, y, c], hj =>
            simp only [offsetOf, origIndex]
            ring
    | zero =>
      refine ⟨[⟨0, min x1 (dx.min + dx.extent) - max x0 dx.min, dx.stride⟩,
        ⟨0, min y1 (dy.min + dy.extent) - max y0 dy.min, dy.stride⟩, dc],
        (max x0 dx.min - dx.min) * dx.stride + (max y0 dy.min - dy.min) * dy.stride, fun base => ?_, ?_⟩
      · simp only [ViewOp.apply, cropImage, ArrayRef.make, cropImageShape, imax_eq, imin_eq, Dim.max, flatOffset_eq]
        rw [resolve_of_known (by
          simp only [List.mem_cons, List.not_mem_nil, or_false, forall_eq_or_imp, forall_eq]
          exact ⟨h1, h2, h3⟩)]
        have e1 : dx.min + dx.extent - 1 + 1 = dx.min + dx.extent := by omega
        have e2 : dy.min + dy.extent - 1 + 1 = dy.min + dy.extent := by omega
        rw [e1, e2]
        congr 1
        cases base with
        | none => rfl
        | some b =>
          simp only [Option.map_some, offsetOf, Option.some.injEq]
          ring
      · refine ⟨?_, ?_, ?_, ?_, ?_⟩
        · simp only [NonNeg, List.mem_cons, List.not_mem_nil, or_false, forall_eq_or_imp, forall_eq]
          omega
        · simp only [List.mem_cons, List.not_mem_nil, or_false, forall_eq_or_imp, forall_eq]
          exact ⟨h1, h2, h3⟩
        · intro j hj
          match j, hj with
          | [x, y, c], hj =>
            simp only [InBox, and_true, origIndex] at hj ⊢
            omega
        · intro j hj
          match j, hj with
          | [x, y, c], hj =>
            simp only [offsetOf, origIndex]
            ring
        · intro i j hi hj e
          match i, j, hi, hj with
          | [x, y, c], [x', y', c'], _, _ =>
            simp only [origIndex, List.cons.injEq, and_true] at e ⊢
            omega
  | sliceChannel c =>
    obtain ⟨dx, dy, dc, rfl, hc⟩ := hok
    have hv := crop_viewOf (s := [dx, dy, dc]) (args := [.dm dx, .dm dy, .idx c])
      (.cons ⟨hn dx (by simp), le_refl _, le_refl _⟩ (.cons ⟨hn dy (by simp), le_refl _, le_refl _⟩
        (.cons hc .nil))) hn hk
    have hshape : Shape.crop [dx, dy, dc] [.dm dx, .dm dy, .idx c] = [dx, dy] := rfl
    rw [hshape] at hv
    refine ⟨[dx, dy], offsetOf [dx, dy, dc] (Shape.minsOfIntervals [.dm dx, .dm dy, .idx c] [dx, dy, dc]),
      fun base => ?_, ⟨hv.nonNeg, hv.known, ?_, ?_, ?_⟩⟩
    · simp only [ViewOp.apply, sliceChannel, ArrayRef.crop, pointerAdd, flatOffset_eq, hshape]
    · intro j hj
      match j, hj with
      | [x, y], hj => exact hv.inside _ hj
    · intro j hj
      match j, hj with
      | [x, y], hj => exact hv.offset _ hj
    · intro i j _ _ e
      exact List.append_cancel_right e
  | convert ts =>
    refine ⟨convertShape ts s, 0, fun base => ?_, convert_viewOf hok.1 hok.2 hn hk⟩
    simp only [ViewOp.apply, ArrayRef.convertShape]
    cases base <;> simp

/-- A chain of steps makes a view of the array. -/
theorem viewChain_step {ops : List ViewOp} : ∀ {s : Shape}, NonNeg s → (∀ d ∈ s, Known d) → ViewChainOk ops s →
    ∃ r off, (∀ base, applyViews ops ⟨base, s⟩ = ⟨base.map (· + off), r⟩) ∧ ViewOf s r off (chainIndex ops s) := by
  induction ops with
  | nil =>
    intro s hn hk _
    exact ⟨s, 0, fun base => by cases base <;> simp [applyViews], ViewOf.refl hn hk⟩
  | cons op ops ih =>
    intro s hn hk hok
    obtain ⟨r, o, he, hv⟩ := viewOp_step hn hk hok.1
    have hr : (op.apply ⟨some 0, s⟩).shape = r := by rw [he]
    have hok' := hok.2
    rw [hr] at hok'
    obtain ⟨q, p, he', hv'⟩ := ih hv.nonNeg hv.known hok'
    refine ⟨q, o + p, fun base => ?_, ?_⟩
    · show applyViews ops (op.apply ⟨base, s⟩) = _
      rw [he, he']
      cases base with
      | none => rfl
      | some b => simp [add_assoc]
    · have h3 := hv.trans hv'
      show ViewOf s q (o + p) fun j => origIndex s op (chainIndex ops (op.apply ⟨some 0, s⟩).shape j)
      rw [hr]
      exact h3

theorem viewChain_of {ops : List ViewOp} {s : Shape} (hn : NonNeg s) (hk : ∀ d ∈ s, Known d)
    (hok : ViewChainOk ops s) : (∀ base, applyViews ops ⟨base, s⟩ = ⟨base.map (· + viewOffset ops s), viewShape ops s⟩) ∧
      ViewOf s (viewShape ops s) (viewOffset ops s) (chainIndex ops s) := by
  obtain ⟨r, off, he, hv⟩ := viewChain_step hn hk hok
  have h1 : viewShape ops s = r := by unfold viewShape; rw [he]
  have h2 : viewOffset ops s = off := by unfold viewOffset; rw [he]; simp
  rw [h1, h2]
  exact ⟨he, hv⟩

end Nda
