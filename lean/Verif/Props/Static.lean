import Verif.Lemmas.Compact
import Verif.Lemmas.Views
import Verif.Props.Strides
/-
C28 (compile-time parameters), C29 (make_compact) and C30 (convert_shape).
-/
namespace Nda
open Spec

/-! ### C28 -/

/-- C28: compile-time arithmetic is sound: whenever the result is not the placeholder it is the
result of the run-time computation. -/
theorem C28_static_arithmetic {A B a b : Int} (hA : Describes A a) (hB : Describes B b) :
    Describes (staticAdd A B) (a + b) ∧ Describes (staticSub A B) (a - b) ∧
    Describes (staticMul A B) (a * b) ∧ Describes (staticMin A B) (min a b) ∧
    Describes (staticMax A B) (max a b) ∧ Describes (staticAbs A) |a| :=
  ⟨staticAdd_describes hA hB, staticSub_describes hA hB, staticMul_describes hA hB,
    staticMin_describes hA hB, staticMax_describes hA hB, staticAbs_describes hA⟩

/-- C28: the compile-time `Max` of a dim or interval type. -/
theorem C28_static_max (t : DimT) (d : Dim) (h : Fits t d) :
    Describes t.Max (d.min + d.extent - 1) :=
  staticSub_describes (staticAdd_describes h.1 h.2.1) (describes_self 1)

/-- C28: constructing a dim: the assertions pass exactly if the arguments agree with the static
parameters, and then the accessors return the arguments. -/
theorem C28_construct (t : DimT) (m e s : Int) :
    (t.makeAssert m e s = true ↔ Fits t ⟨m, e, s⟩) ∧
    (t.makeAssert m e s = true → t.make m e s = ⟨m, e, s⟩) ∧ Fits t (t.make m e s) :=
  ⟨makeAssert_iff t m e s, fun h => make_of_fits ((makeAssert_iff t m e s).1 h), make_fits t m e s⟩

/-- C28: default construction never asserts, and uses 0 for unspecified min and extent and the
placeholder for an unspecified stride. -/
theorem C28_default (t : DimT) :
    t.defaultAssert = true ∧ Fits t t.default_ ∧
    (t.min = -9 → t.default_.min = 0) ∧ (t.extent = -9 → t.default_.extent = 0) ∧
    (t.stride = -9 → t.default_.stride = -9223372036854775808) := by
  have h1 : t.defaultAssert = true := by
    unfold DimT.defaultAssert DimT.ofExtentAssert
    rw [makeAssert_iff]
    refine ⟨?_, ?_, defaultStride_describes t⟩
    · intro h; simp only; rw [if_pos ((isStatic_iff _).2 h)]
    · intro h; simp only; rw [if_pos ((isStatic_iff _).2 h)]
  refine ⟨h1, make_fits _ _ _ _, ?_, ?_, ?_⟩
  · intro h
    unfold DimT.default_ DimT.ofExtent DimT.make ciInit
    simp [isStatic_eq_false.2 h]
  · intro h
    unfold DimT.default_ DimT.ofExtent DimT.make ciInit
    simp [isStatic_eq_false.2 h]
  · intro h
    unfold DimT.default_ DimT.ofExtent DimT.make ciInit DimT.defaultStride
    simp [isStatic_eq_false.2 h, unresolved]

/-- C28: converting a shape to another shape type of the same rank: the assertions pass exactly if
every dim is convertible; then every min and extent is preserved and every stride is, unless it
was still unresolved and the new type knows it. -/
theorem C28_convert (ts : List DimT) (src : Shape) (hl : ts.length = List.length src) :
    (convertShapeSameRankAssert ts src = true ↔ List.Forall₂ Convertible ts src) ∧
    (convertShapeSameRankAssert ts src = true →
      List.Forall₂ (fun a b : Dim => b.min = a.min ∧ b.extent = a.extent ∧
        (Known a → b.stride = a.stride)) src (convertShapeSameRank ts src)) ∧
    List.Forall₂ Fits ts (convertShapeSameRank ts src) := by
  have key : ∀ (f : DimT → Dim → Bool) (P : DimT → Dim → Prop), (∀ t d, f t d = true ↔ P t d) →
      ∀ (ts : List DimT) (src : List Dim), ts.length = src.length →
      (Nda.all (List.zipWith f ts src) = true ↔ List.Forall₂ P ts src) := by
    intro f P hf ts
    induction ts with
    | nil =>
      intro src hl
      obtain rfl : src = [] := List.length_eq_zero_iff.1 hl.symm
      simp [all_iff]
    | cons t ts ih =>
      intro src hl
      cases src with
      | nil => simp at hl
      | cons d src =>
        have := ih src (by simpa using hl)
        rw [all_iff] at this ⊢
        simp only [List.zipWith_cons_cons, List.forall_mem_cons, List.forall₂_cons, this, hf]
  have h1 : convertShapeSameRankAssert ts src = true ↔ List.Forall₂ Convertible ts src := by
    unfold convertShapeSameRankAssert assertDimsCompatible
    rw [Bool.and_eq_true, key _ _ assertDimCompatible_iff ts src hl,
      key _ _ convertAssert_iff ts src hl, and_self]
  refine ⟨h1, fun h => ?_, ?_⟩
  · have h' := h1.1 h
    unfold convertShapeSameRank
    clear h1 hl key h
    induction h' with
    | nil => exact List.Forall₂.nil
    | cons hc _ ih =>
      obtain ⟨e1, e2, e3⟩ := convert_of_convertible hc
      refine List.Forall₂.cons ⟨e1, e2, fun hk => ?_⟩ ih
      rcases e3 with e3 | ⟨e3, _⟩
      · exact e3
      · exact absurd e3 hk
  · unfold convertShapeSameRank
    clear h1 key
    induction ts generalizing src with
    | nil =>
      obtain rfl : src = [] := List.length_eq_zero_iff.1 hl.symm
      simp
    | cons t ts ih =>
      cases src with
      | nil => simp at hl
      | cons d src => exact List.Forall₂.cons (convert_fits t d) (ih src (by simpa using hl))

/-- C28: `is_compatible` returning true guarantees an assertion-free conversion that changes no
min, extent or stride. -/
theorem C28_is_compatible (ts : List DimT) (src : Shape) (hl : ts.length = List.length src)
    (h : isCompatible ts src = true) :
    convertShapeSameRankAssert ts src = true ∧ convertShapeSameRank ts src = src := by
  have hfits : List.Forall₂ Fits ts src := by
    unfold isCompatible at h
    rw [all_iff] at h
    induction ts generalizing src with
    | nil =>
      obtain rfl : src = [] := List.length_eq_zero_iff.1 hl.symm
      simp
    | cons t ts ih =>
      cases src with
      | nil => simp at hl
      | cons d src =>
        simp only [List.zipWith_cons_cons, List.forall_mem_cons] at h
        refine List.Forall₂.cons ?_ (ih src (by simpa using hl) h.2)
        have := h.1
        unfold DimT.isDimCompatible at this
        simp only [Bool.and_eq_true, Bool.or_eq_true, isDynamic_iff, beq_iff_eq] at this
        unfold Fits Describes
        tauto
  have hc : List.Forall₂ Convertible ts src :=
    hfits.imp (fun _ _ h => ⟨h.1, h.2.1, Or.inr h.2.2⟩)
  refine ⟨(C28_convert ts src hl).1.2 hc, ?_⟩
  unfold convertShapeSameRank
  clear hl h hc
  induction hfits with
  | nil => rfl
  | @cons t d ts src hd _ ih =>
    rw [List.zipWith_cons_cons, ih]
    congr 1
    have hcv : Convertible t d := ⟨hd.1, hd.2.1, Or.inr hd.2.2⟩
    obtain ⟨e1, e2, e3⟩ := convert_of_convertible hcv
    have e4 : (t.convert d).stride = d.stride := by
      rcases e3 with e3 | ⟨h5, e5⟩
      · exact e3
      · by_cases hs : t.stride = -9
        · unfold DimT.convert DimT.setStride
          rw [if_neg (by rw [isStatic_iff]; exact fun hh => hh hs)]
        · rw [e5, hd.2.2 hs]
    cases hcd : t.convert d
    cases d
    simp_all

/-- C28, negative part: `is_compatible` is documented as "can be assigned without error", but it is
false for a shape whose stride is unresolved although that shape can be assigned without error. -/
theorem C28_is_compatible_incomplete_counterexample :
    isCompatible [⟨dynamic, dynamic, 1⟩] [⟨0, 5, unresolved⟩] = false ∧
    convertShapeSameRankAssert [⟨dynamic, dynamic, 1⟩] [⟨0, 5, unresolved⟩] = true ∧
    convertShapeSameRank [⟨dynamic, dynamic, 1⟩] [⟨0, 5, unresolved⟩] = [⟨0, 5, 1⟩] := by decide

/-- C28: assignment gives the same result as construction. -/
theorem C28_assign (t : DimT) (d src : Dim) (hd : Fits t d) (hc : Convertible t src) :
    (t.assign d src).min = src.min ∧ (t.assign d src).extent = src.extent ∧
    (Known src → (t.assign d src).stride = src.stride) ∧ Fits t (t.assign d src) := by
  rw [assign_eq_convert t d src hd]
  obtain ⟨e1, e2, e3⟩ := convert_of_convertible hc
  refine ⟨e1, e2, fun hk => ?_, convert_fits t src⟩
  rcases e3 with e3 | ⟨e3, _⟩
  · exact e3
  · exact absurd e3 hk

/-- C28: `set_min`, `set_extent` and `set_stride` and assignments never change what the type fixes, also without assertions, and set values
that agree with it. -/
theorem C28_set (t : DimT) (d src : Dim) (v : Int) (h : Fits t d) :
    Fits t (t.setMin d v) ∧ Fits t (t.setExtent d v) ∧ Fits t (t.setStride d v) ∧ Fits t (t.assign d src) ∧
    (Describes t.min v → t.setMin d v = ⟨v, d.extent, d.stride⟩) ∧
    (Describes t.extent v → t.setExtent d v = ⟨d.min, v, d.stride⟩) ∧
    (Describes t.stride v → t.setStride d v = ⟨d.min, d.extent, v⟩) := by
  obtain ⟨h1, h2, h3⟩ := h
  have key : ∀ p x : Int, Describes p (ciInit p x) ∧ (Describes p x → ciInit p x = x) := by
    intro p x
    unfold ciInit Describes
    by_cases hp : p = -9
    · subst hp
      exact ⟨fun h => absurd rfl h, fun _ => by simp [isStatic, isDynamic, dynamic]⟩
    · exact ⟨fun _ => by rw [if_pos ((isStatic_iff p).2 hp)], fun hx => by rw [if_pos ((isStatic_iff p).2 hp), hx hp]⟩
  refine ⟨⟨(key _ v).1, h2, h3⟩, ⟨h1, (key _ v).1, h3⟩, ?_, ?_, fun hv => ?_, fun hv => ?_, fun hv => ?_⟩
  · unfold DimT.setStride
    split
    · exact ⟨h1, h2, h3⟩
    · rename_i hs
      exact ⟨h1, h2, fun hp => absurd ((isStatic_iff _).2 hp) hs⟩
  · rw [assign_eq_convert t d src ⟨h1, h2, h3⟩]
    exact convert_fits t src
  · unfold DimT.setMin
    rw [(key _ v).2 hv]
  · unfold DimT.setExtent
    rw [(key _ v).2 hv]
  · unfold DimT.setStride
    split
    · rename_i hs
      have e1 := h3 ((isStatic_iff _).1 hs)
      have e2 := hv ((isStatic_iff _).1 hs)
      rw [e2, ← e1]
    · rfl

/-- Setting an extent that the type fixes. -/
example : DimT.setExtent ⟨dynamic, 3, 1⟩ ⟨0, 3, 1⟩ 7 = ⟨0, 3, 1⟩ ∧ DimT.setMin ⟨dynamic, 3, 1⟩ ⟨0, 3, 1⟩ 7 = ⟨7, 3, 1⟩ := by decide

/-- C28: intersecting two dims (used by `array::reshape`): the statically computed bounds are
right, the constructor's assertions pass, and the result contains exactly the common indices, with
the stride of the first. -/
theorem C28_clamp_dims (a b : SDim) (ha : Fits a.ty a.val) (hb : Fits b.ty b.val) :
    SDim.clampDimsAssert a b = true ∧
    Fits (SDim.clampDims a b).ty (SDim.clampDims a b).val ∧
    (SDim.clampDims a b).val = SDim.clampVal a.val b.val ∧
    (∀ i, (SDim.clampDims a b).val.isInRange i = true ↔
      a.val.isInRange i = true ∧ b.val.isInRange i = true) ∧
    (SDim.clampDims a b).val.stride = a.val.stride := by
  have hf : Fits (SDim.clampTy a.ty b.ty) (SDim.clampVal a.val b.val) := by
    unfold SDim.clampTy SDim.clampVal
    simp only [imax_eq, imin_eq]
    have h1 := staticMax_describes ha.1 hb.1
    have h2 : Describes a.ty.Max a.val.max := C28_static_max _ _ ha
    have h3 : Describes b.ty.Max b.val.max := C28_static_max _ _ hb
    exact ⟨h1, staticAdd_describes (staticSub_describes (staticMin_describes h2 h3) h1)
      (describes_self 1), ha.2.2⟩
  have hv : (SDim.clampDims a b).val = SDim.clampVal a.val b.val := make_of_fits hf
  refine ⟨(makeAssert_iff _ _ _ _).2 hf, make_fits _ _ _ _, hv, ?_, by rw [hv]; rfl⟩
  intro i
  rw [hv, Dim.isInRange_iff, Dim.isInRange_iff, Dim.isInRange_iff]
  unfold SDim.clampVal Dim.max
  simp only [imax_eq, imin_eq]
  omega

/-- C28: `clamp` of whole shapes: the indices that both have, with the strides and static parameters of the first. -/
theorem C28_clamp_shape (a b : List SDim) (hl : a.length = b.length) (ha : ∀ d ∈ a, Fits d.ty d.val) (hb : ∀ d ∈ b, Fits d.ty d.val) :
    (∀ d ∈ clampShape a b, Fits d.ty d.val) ∧ values (clampShape a b) = Shape.clamp (values a) (values b) ∧
    (∀ i, InBox (values (clampShape a b)) i ↔ InBox (values a) i ∧ InBox (values b) i) ∧
    (values (clampShape a b)).map Dim.stride = (values a).map Dim.stride := by
  induction a generalizing b with
  | nil =>
    cases b with
    | nil => exact ⟨by simp [clampShape], rfl, fun i => (and_self_iff).symm, rfl⟩
    | cons => simp at hl
  | cons d a ih =>
    cases b with
    | nil => simp at hl
    | cons e b =>
      obtain ⟨h1, h2, h3, h4⟩ := ih b (by simpa using hl) (fun d hd => ha d (by simp [hd])) fun d hd => hb d (by simp [hd])
      obtain ⟨-, g1, g2, g3, g4⟩ := C28_clamp_dims d e (ha d (by simp)) (hb e (by simp))
      refine ⟨?_, ?_, ?_, ?_⟩
      · intro x hx
        rcases List.mem_cons.1 (show x ∈ SDim.clampDims d e :: clampShape a b from hx) with rfl | hx
        · exact g1
        · exact h1 x hx
      · change (SDim.clampDims d e).val :: values (clampShape a b) = SDim.clampVal d.val e.val :: Shape.clamp (values a) (values b)
        rw [g2, h2]
      · intro i
        change InBox ((SDim.clampDims d e).val :: values (clampShape a b)) i ↔ InBox (d.val :: values a) i ∧ InBox (e.val :: values b) i
        cases i with
        | nil => exact ⟨fun h => h.elim, fun h => h.1.elim⟩
        | cons x i =>
          have hx := g3 x
          rw [Dim.isInRange_iff, Dim.isInRange_iff, Dim.isInRange_iff] at hx
          have h3' := h3 i
          simp only [InBox]
          constructor
          · rintro ⟨k1, k2⟩
            have k3 := hx.1 (by omega)
            have k4 := h3'.1 k2
            exact ⟨⟨by omega, k4.1⟩, ⟨by omega, k4.2⟩⟩
          · rintro ⟨⟨k1, k2⟩, k3, k4⟩
            have k5 := hx.2 ⟨by omega, by omega⟩
            exact ⟨by omega, h3'.2 ⟨k2, k4⟩⟩
      · change (SDim.clampDims d e).val.stride :: (values (clampShape a b)).map Dim.stride = d.val.stride :: (values a).map Dim.stride
        rw [g4, h4]

/-- The columns 2 to 5 of an image with dense rows keep the strides of the image. -/
example : clampShape [⟨⟨0, dynamic, 1⟩, ⟨0, 8, 1⟩⟩, ⟨⟨dynamic, dynamic, dynamic⟩, ⟨0, 3, 8⟩⟩]
      [⟨⟨2, 4, dynamic⟩, ⟨2, 4, 9⟩⟩, ⟨⟨dynamic, dynamic, dynamic⟩, ⟨1, 5, 1⟩⟩] =
    [⟨⟨2, dynamic, 1⟩, ⟨2, 4, 1⟩⟩, ⟨⟨dynamic, dynamic, dynamic⟩, ⟨1, 2, 8⟩⟩] := by decide

/-- C28: cropping (by an index, interval or dim) builds dims whose static parameters are right, so
no assertion can fail. -/
theorem C28_crop_types (c d : SDim) (x : Int) (hc : Fits c.ty c.val) (hd : Fits d.ty d.val) :
    SDim.rangeIndexAssert x d = true ∧ SDim.rangeIntervalAssert c d = true ∧
    (SDim.rangeIndex x d).val = ⟨x, 1, d.val.stride⟩ ∧
    (SDim.rangeInterval c d).val = ⟨c.val.min, c.val.extent, d.val.stride⟩ := by
  have h1 : Fits ⟨dynamic, 1, d.ty.stride⟩ ⟨x, 1, d.val.stride⟩ :=
    ⟨describes_dynamic' _, describes_self 1, hd.2.2⟩
  have h2 : Fits ⟨c.ty.min, c.ty.extent, d.ty.stride⟩ ⟨c.val.min, c.val.extent, d.val.stride⟩ :=
    ⟨hc.1, hc.2.1, hd.2.2⟩
  exact ⟨(makeAssert_iff _ _ _ _).2 h1, (makeAssert_iff _ _ _ _).2 h2, make_of_fits h1,
    make_of_fits h2⟩

/-- C28, negative part: -9 is an ordinary index but cannot be given as a static parameter: a
default constructed `dim<-9, 4>` starts at 0. -/
theorem C28_minus_nine_counterexample : (DimT.mk (-9) 4 1).default_ = ⟨0, 4, 1⟩ := by decide

/-- Static and dynamic parameters meeting: a `dim<0, 8, 1>` intersected with a dynamic dim. -/
example : SDim.clampDims ⟨⟨0, 8, 1⟩, ⟨0, 8, 1⟩⟩ ⟨⟨2, 4, dynamic⟩, ⟨2, 4, 9⟩⟩ =
    ⟨⟨2, 4, 1⟩, ⟨2, 4, 1⟩⟩ := by decide
example : Convertible ⟨dynamic, 3, 1⟩ ⟨-4, 3, unresolved⟩ ∧ Fits ⟨dynamic, 3, 1⟩ ⟨-4, 3, 1⟩ := by
  simp [Convertible, Fits, Describes, dynamic, unresolved]

/-! ### C29 -/

/-- C29: `make_compact` keeps rank, mins, extents and all compile-time strides, and the result's
static parameters describe it. -/
theorem C29_keeps (l : List SDim) (h : ∀ d ∈ l, Fits d.ty d.val) :
    List.Forall₂ (fun d r : SDim => r.val.min = d.val.min ∧ r.val.extent = d.val.extent ∧
      (d.ty.stride ≠ -9 → r.ty.stride = d.ty.stride ∧ r.val.stride = d.ty.stride) ∧
      Fits r.ty r.val) l (makeCompact l) := by
  have h1 := makeCompactDimsFrom_forall₂ (makeCompactStart l) l h
  have hf : ∀ d ∈ makeCompactDims l, Fits d.ty d.val := by
    intro d hd
    have : ∀ {a b : List SDim} {R : SDim → SDim → Prop}, List.Forall₂ R a b →
        (∀ x y, R x y → Fits y.ty y.val) → ∀ y ∈ b, Fits y.ty y.val := by
      intro a b R hab hR
      induction hab with
      | nil => intro y hy; simp at hy
      | cons h1 _ ih =>
        intro y hy
        rcases List.mem_cons.1 hy with rfl | hy
        · exact hR _ _ h1
        · exact ih y hy
    exact this h1 (fun x y hxy => hxy.2.2.2.2.2) d hd
  have h2 := writeBack_forall₂ (c := makeCompactDims l)
    (r := (values (makeCompactDims l)).resolve) (by rw [resolve_length]; simp [values]) hf
  rw [← makeCompact_eq] at h2
  replace h1 : List.Forall₂ _ l (makeCompactDims l) := h1
  clear hf
  generalize makeCompact l = r at h2
  generalize makeCompactDims l = c at h1 h2
  clear h
  induction h1 generalizing r with
  | nil => cases h2; exact List.Forall₂.nil
  | cons hh _ ih =>
    cases h2 with
    | cons hk ht =>
      refine List.Forall₂.cons ⟨by rw [hk.2.1, hh.2.2.1], by rw [hk.2.2.1, hh.2.2.2.1], ?_,
        hk.2.2.2⟩ (ih _ ht)
      intro hs
      have e : _ = _ := hh.2.2.2.2.1 hs
      have e2 := hk.1
      refine ⟨by rw [e2, e], ?_⟩
      have := hk.2.2.2.2.2
      rw [e2, e] at this
      exact this hs

/-- C29: for a shape type without compile-time strides the result has no gaps and no aliasing: its
offsets are exactly `0 … size()-1`, each used by one index. -/
theorem C29_compact (l : List SDim) (h : ∀ d ∈ l, Fits d.ty d.val) (hs : ∀ d ∈ l, d.ty.stride = -9)
    (hpos : Pos (values l)) (hfit : (List.map Dim.extent (values l)).prod ≤ 9223372036854775807) :
    let r := values (makeCompact l)
    (∀ o, (∃ i, InBox r i ∧ offsetOf r i = o) ↔ 0 ≤ o ∧ o < r.size) ∧
    Injective r ∧ r.isCompact = true ∧ r.isOneToOne = true := by
  intro r
  have hr : r = (Shape.bounds (values l)).resolve := by
    show values (makeCompact l) = _
    rw [makeCompact_dynamic h hs hpos hfit, resolve_bounds hpos hfit]
  rw [hr]
  refine C05_dense _ (bounds_pos hpos) (fun d hd => bounds_not_known hd) ?_
  have := bounds_prod (values l)
  exact le_of_eq_of_le this hfit

/-- C29: and if its parameters are all dynamic, its type is `dense_shape<Rank>`, as documented. -/
theorem C29_dense_shape (l : List SDim) (h : ∀ d ∈ l, d.ty = ⟨-9, -9, -9⟩) :
    types (makeCompact l) = denseShapeTy l.length := by
  have hs : makeCompactStart l = 1 := makeCompactStart_dynamic (fun d hd => by rw [h d hd])
  have h2 : ∀ (c : List SDim) (r : List Dim), r.length = c.length →
      types (writeBack c r) = types c := by
    intro c
    induction c with
    | nil => intro r _; simp [writeBack, types]
    | cons d c ih =>
      intro r hl
      cases r with
      | nil => simp at hl
      | cons x r =>
        have := ih r (by simpa using hl)
        show d.ty :: types (writeBack c r) = _
        rw [this]; rfl
  rw [makeCompact_eq, h2 _ _ (by rw [resolve_length]; simp [values])]
  unfold makeCompactDims
  rw [hs]
  have h3 : ∀ l : List SDim, (∀ d ∈ l, d.ty = ⟨-9, -9, -9⟩) →
      types (makeCompactDimsFrom (-9) l) = List.replicate l.length DimT.any := by
    intro l hl
    induction l with
    | nil => rfl
    | cons d l ih =>
      rw [makeCompactDimsFrom_cons, staticMul_dynamic]
      show (compactOne (-9) d).ty :: types _ = _
      rw [ih (fun x hx => hl x (by simp [hx]))]
      unfold compactOne
      rw [hl d (by simp)]
      rfl
  cases l with
  | nil => rfl
  | cons d l =>
    rw [makeCompactDimsFrom_cons]
    have hd := h d (by simp)
    have hm : staticMul 1 d.ty.extent = -9 := by rw [hd]; rfl
    rw [hm]
    show (compactOne 1 d).ty :: types _ = _
    rw [h3 l (fun x hx => h x (by simp [hx]))]
    unfold compactOne
    rw [hd]
    rfl

/-- C29: with one compile-time dense dim (stride 1) and no other compile-time strides, anywhere in
the shape, the result never maps two indices to the same offset. -/
theorem C29_dense_dim_no_aliasing (pre post : List SDim) (dd : SDim) (hdd : dd.ty.stride = 1)
    (hf : ∀ d ∈ pre ++ dd :: post, Fits d.ty d.val ∧ 0 < d.val.extent)
    (hpre : ∀ d ∈ pre, d.ty.stride = -9) (hpost : ∀ d ∈ post, d.ty.stride = -9)
    (hfit : dd.val.extent * (List.map Dim.extent (values (pre ++ dd :: post))).prod
      < 9223372036854775807) :
    Injective (values (makeCompact (pre ++ dd :: post))) := by
  obtain ⟨a1, b1, a2, b2, e1, e2, hb, hv⟩ := makeCompactDims_dense_values hdd hf hpre hpost
  have hstride : ∀ d ∈ makeCompactDims (pre ++ dd :: post),
      d.ty.stride ≠ -9223372036854775808 := by
    apply makeCompactDimsFrom_stride
    · rcases makeCompactStart_dense hdd (hf dd (by simp)).2 (hf dd (by simp)).1 hpre hpost with h | h
      · exact Or.inl h
      · right; rw [h]; exact (hf dd (by simp)).2
    · intro d hd
      refine ⟨(hf d hd).1, ?_, (hf d hd).2⟩
      rcases List.mem_append.1 hd with hd | hd
      · rw [hpre d hd]; decide
      · rcases List.mem_cons.1 hd with rfl | hd
        · rw [hdd]; decide
        · rw [hpost d hd]; decide
  rw [values_makeCompact (fun d hd => (hf d hd).1) hstride, hv]
  have hp : ∀ x : List SDim, (∀ d ∈ x, d ∈ pre ++ dd :: post) → Pos (values x) := fun x hx =>
    values_pos (fun d hd => (hf d (hx d hd)).2)
  have hinv : ResInv ((prodStrides dd.val.extent (values a1) ++ Shape.bounds (values b1)) ++
      (⟨dd.val.min, dd.val.extent, 1⟩ : Dim) ::
      (prodStrides (dd.val.extent * ((values a1 ++ values b1).map fun d : Dim => d.extent).prod *
        dd.val.extent) (values a2) ++ Shape.bounds (values b2))) := by
    apply dense_resInv (hf dd (by simp)).2
    · exact hp a1 (by intro d hd; simp [e1, hd])
    · exact hp b1 (by intro d hd; simp [e1, hd])
    · exact hp a2 (by intro d hd; simp [e2, hd])
    · exact hp b2 (by intro d hd; simp [e2, hd])
    · intro h
      have : b1 ≠ [] := by rintro rfl; exact h rfl
      rw [hb this]; rfl
    · rw [← values_append, ← e1, ← values_append, ← e2]
      rw [values_append] at hfit
      simp only [List.map_append, List.prod_append, values, List.map_cons, List.prod_cons] at hfit
      exact hfit
  rw [e1, values_append]
  exact injective_of_nested (resolve_nested hinv) (resolve_moving hinv)

/-- C29, negative part: an innermost compile-time dense dim of extent 4 makes the next stride
4*4 = 16 instead of 4: the "compact" shape has holes (but `resolve()` alone would not). -/
theorem C29_gap_counterexample :
    let l : List SDim := [⟨⟨dynamic, 4, 1⟩, ⟨0, 4, 1⟩⟩, ⟨⟨dynamic, 3, dynamic⟩, ⟨0, 3, unresolved⟩⟩]
    (∀ d ∈ l, Fits d.ty d.val) ∧ (values (makeCompact l)).strides = [1, 16] ∧
    (values (makeCompact l)).isCompact = false ∧ (values l).resolve.isCompact = true := by
  refine ⟨?_, by decide +kernel, by decide +kernel, by decide +kernel⟩
  simp [Fits, Describes, dynamic]

/-- C29, negative part: with a compile-time negative stride `make_compact` gives the first dim a
compile-time stride that aliases, where plain `resolve()` would have avoided it. -/
theorem C29_negative_stride_counterexample :
    let l : List SDim := [⟨⟨dynamic, dynamic, dynamic⟩, ⟨0, 2, unresolved⟩⟩,
      ⟨⟨dynamic, dynamic, -4⟩, ⟨0, 2, -4⟩⟩, ⟨⟨dynamic, 4, 1⟩, ⟨0, 4, 1⟩⟩]
    (∀ d ∈ l, Fits d.ty d.val) ∧
    (values (makeCompact l)).strides = [4, -4, 1] ∧ ¬ Injective (values (makeCompact l)) ∧
    (values l).resolve.strides = [8, -4, 1] := by
  refine ⟨?_, by decide +kernel, ?_, by decide +kernel⟩
  · simp [Fits, Describes, dynamic]
  · intro h
    have := h [0, 0, 0] [1, 1, 0] ⟨by decide +kernel, by decide +kernel, by decide +kernel, trivial⟩
      ⟨by decide +kernel, by decide +kernel, by decide +kernel, trivial⟩ (by decide +kernel)
    simp at this

/-- C29: `fixed_dense_shape<E0, E1, ...>` with positive extents is compact and one-to-one (all its
parameters are compile-time constants). -/
theorem C29_fixed_dense (es : List Int) (h : ∀ e ∈ es, 0 < e) :
    values (fixedDense es) = prodStrides 1 (es.map fun e => ⟨0, e, 0⟩) ∧
    (∀ o, (∃ i, InBox (values (fixedDense es)) i ∧ offsetOf (values (fixedDense es)) i = o) ↔
      0 ≤ o ∧ o < es.prod) := by
  have hgen : ∀ (es : List Int) (c : Int), 1 ≤ c → (∀ e ∈ es, 0 < e) →
      (types (makeCompactDimsFrom c (es.map fun e =>
        ⟨⟨0, e, dynamic⟩, DimT.default_ ⟨0, e, dynamic⟩⟩))).map (fun t => t.default_) =
      prodStrides c (es.map fun e => ⟨0, e, 0⟩) := by
    intro es
    induction es with
    | nil => intro c _ _; rfl
    | cons e es ih =>
      intro c hc he
      have he0 := he e (by simp)
      have hm : staticMul c e = c * e := by
        unfold staticMul
        rw [if_neg]
        rw [isDynamic2_iff]; omega
      rw [List.map_cons, makeCompactDimsFrom_cons]
      show DimT.default_ (compactOne c _).ty :: (types (makeCompactDimsFrom (staticMul c e) _)).map _ = _
      rw [hm, ih (c * e) (by nlinarith) (fun x hx => he x (by simp [hx]))]
      show _ = (⟨0, e, c⟩ : Dim) :: _
      congr 1
      have hc9 : isStatic c = true := (isStatic_iff _).2 (by omega)
      have he9 : isStatic e = true := (isStatic_iff _).2 (by omega)
      have h09 : isStatic 0 = true := rfl
      have hd9 : isStatic dynamic = false := rfl
      simp [compactOne, DimT.default_, DimT.ofExtent, DimT.make, ciInit, hc9, he9, h09, hd9]
  have hval : values (fixedDense es) = prodStrides 1 (es.map fun e => ⟨0, e, 0⟩) := by
    rw [← hgen es 1 (le_refl 1) h]
    unfold fixedDense values types
    rw [List.map_map]
    rfl
  refine ⟨hval, ?_⟩
  set s : List Dim := es.map fun e => ⟨0, e, 0⟩ with hs
  have hpos : Pos s := by
    intro d hd
    obtain ⟨e, he, rfl⟩ := List.mem_map.1 hd
    exact h e he
  have hprod : (s.map fun d : Dim => d.extent).prod = es.prod := by
    rw [hs, List.map_map]; simp [Function.comp_def]
  rw [hval]
  intro o
  constructor
  · rintro ⟨i, hi, rfl⟩
    have := offsetOf_bounds hi
    have h2 : ∀ (l : List Dim) (c : Int), 1 ≤ c → Pos l → Shape.flatMin (prodStrides c l) = 0 ∧
        Shape.flatMax (prodStrides c l) = c * (l.map fun d : Dim => d.extent).prod - c := by
      intro l
      induction l with
      | nil => intro c _ _; simp [prodStrides]
      | cons x l ih =>
        intro c hc hp
        obtain ⟨hx, hl⟩ := pos_cons.1 hp
        obtain ⟨h1, h2⟩ := ih (c * x.extent) (by nlinarith) hl
        rw [prodStrides, flatMin_cons, flatMax_cons, h1, h2]
        simp only [List.map_cons, List.prod_cons]
        rw [min_eq_left (by omega), max_eq_right (by omega)]
        constructor <;> ring
    obtain ⟨h3, h4⟩ := h2 s 1 (le_refl 1) hpos
    rw [h3, h4, hprod] at this
    omega
  · rintro ⟨h1, h2⟩
    obtain ⟨i, hi, he⟩ := prodStrides_surj (le_refl 1) hpos o h1 (by rw [hprod]; exact h2)
    exact ⟨i, hi, by rw [he, one_mul]⟩

example : values (fixedDense [4, 3, 2]) = [⟨0, 4, 1⟩, ⟨0, 3, 4⟩, ⟨0, 2, 12⟩] := by decide
/-- A padded run-time shape made compact; the runtime strides 7 and 40 are dropped. -/
example : values (makeCompact [⟨DimT.any, ⟨0, 5, 7⟩⟩, ⟨DimT.any, ⟨-2, 3, 40⟩⟩]) =
    [⟨0, 5, 1⟩, ⟨-2, 3, 5⟩] := by decide +kernel
/-- The hypotheses of `C29_dense_dim_no_aliasing` for an interleaved image shape. -/
example : values (makeCompact [⟨DimT.any, ⟨0, 5, 7⟩⟩, ⟨DimT.any, ⟨-2, 3, 40⟩⟩,
    ⟨⟨0, 3, 1⟩, ⟨0, 3, 1⟩⟩]) = [⟨0, 5, 3⟩, ⟨-2, 3, 15⟩, ⟨0, 3, 1⟩] := by decide +kernel

/-! ### C30 -/

theorem convertDims_raise {ts : List DimT} {src : Shape} (hl : List.length src ≤ ts.length)
    (hk : ∀ d ∈ src, Known d) (h : convertShapeAssert ts src = true) :
    convertDims ts src = List.append src ((ts.drop (List.length src)).map fun t =>
      t.convert (t.ofExtent 1)) ∧
    (∀ d ∈ (ts.drop (List.length src)).map (fun t => t.convert (t.ofExtent 1)), d.extent = 1) := by
  unfold convertShapeAssert at h
  rw [Bool.and_eq_true, all_iff] at h
  obtain ⟨-, h⟩ := h
  have hi : ∀ i, (hi : i < ts.length) → (i < List.length src ∨ (ts[i]).ofExtentAssert 1 = true) ∧
      (ts[i]).convertAssert (convertDim ts src i) = true := by
    intro i hi
    have := h _ (List.mem_map_of_mem (f := fun i => (decide (i < List.length src) ||
      (ts.getD i default).ofExtentAssert 1) && (ts.getD i default).convertAssert (convertDim ts src i))
      (List.mem_range.2 hi))
    simpa [hi] using this
  constructor
  · apply List.ext_getElem
    · simp [convertDims]; omega
    · intro i h1 h2
      have hit : i < ts.length := by simpa [convertDims] using h1
      obtain ⟨ha, hb⟩ := hi i hit
      have hget : (convertDims ts src)[i] = (ts[i]).convert (convertDim ts src i) := by
        simp [convertDims, hit]
      rw [hget]
      show _ = (src ++ List.map _ _)[i]
      by_cases his : i < List.length src
      · rw [List.getElem_append_left his]
        have hcd : convertDim ts src i = src[i] := by
          unfold convertDim; rw [if_pos his, List.getD_eq_getElem _ _ his]
        rw [hcd] at hb ⊢
        obtain ⟨e1, e2, e3⟩ := convert_of_convertible ((convertAssert_iff _ _).1 hb)
        have e4 : ((ts[i]).convert src[i]).stride = src[i].stride := by
          rcases e3 with e3 | ⟨e3, _⟩
          · exact e3
          · exact absurd e3 (hk _ (List.getElem_mem his))
        generalize (ts[i]).convert src[i] = x at *
        generalize src[i] = y at *
        cases x; cases y; simp_all
      · rw [List.getElem_append_right (by omega)]
        rw [List.getElem_map, List.getElem_drop]
        have hcd : convertDim ts src i = (ts[i]).ofExtent 1 := by
          unfold convertDim; rw [if_neg his, List.getD_eq_getElem _ _ hit]
        rw [hcd]
        have : List.length src + (i - List.length src) = i := by omega
        simp only [this]
  · intro d hd
    obtain ⟨t, ht, rfl⟩ := List.mem_map.1 hd
    obtain ⟨j, hj, rfl⟩ := List.getElem_of_mem ht
    rw [List.length_drop] at hj
    rw [List.getElem_drop]
    obtain ⟨ha, hb⟩ := hi (List.length src + j) (by omega)
    have ha : (ts[List.length src + j]).ofExtentAssert 1 = true := by
      rcases ha with ha | ha
      · omega
      · exact ha
    have hcd : convertDim ts src (List.length src + j) = (ts[List.length src + j]).ofExtent 1 := by
      unfold convertDim; rw [if_neg (by omega), List.getD_eq_getElem]
    rw [hcd] at hb
    rw [(convert_of_convertible ((convertAssert_iff _ _).1 hb)).2.1]
    have := (makeAssert_iff _ _ _ _).1 ha
    exact ciInit_of_describes this.2.1

theorem inBox_append {s t : List Dim} {i j : Index} (hl : i.length = s.length) :
    InBox (s ++ t) (i ++ j) ↔ InBox s i ∧ InBox t j := by
  induction s generalizing i with
  | nil =>
    obtain rfl : i = [] := List.length_eq_zero_iff.1 hl
    simp [InBox]
  | cons d s ih =>
    cases i with
    | nil => simp at hl
    | cons x i =>
      simp only [List.cons_append, InBox, ih (by simpa using hl), and_assoc]

theorem offsetOf_append {s t : List Dim} {i j : Index} (hl : i.length = s.length) :
    offsetOf (s ++ t) (i ++ j) = offsetOf s i + offsetOf t j := by
  induction s generalizing i with
  | nil =>
    obtain rfl : i = [] := List.length_eq_zero_iff.1 hl
    simp [offsetOf]
  | cons d s ih =>
    cases i with
    | nil => simp at hl
    | cons x i =>
      simp only [List.cons_append, offsetOf, ih (by simpa using hl), add_assoc]

theorem inBox_ones {t : List Dim} (h : ∀ d ∈ t, d.extent = 1) (j : Index) :
    InBox t j ↔ j = t.map Dim.min := by
  induction t generalizing j with
  | nil => simp [inBox_nil]
  | cons d t ih =>
    rw [inBox_cons_iff]
    have := h d (by simp)
    constructor
    · rintro ⟨x, k, rfl, hx, hk⟩
      rw [(ih (fun y hy => h y (by simp [hy])) k).1 hk]
      simp; omega
    · rintro rfl
      exact ⟨_, _, rfl, by omega, (ih (fun y hy => h y (by simp [hy])) _).2 rfl⟩

/-- C30: raising the rank (`ts` is the longer destination type).  If the assertions pass, every
element stays reachable, at the same address, with the new coordinates at their min (0 unless the
type says otherwise); there are no other elements. -/
theorem C30_raise (ts : List DimT) (a : ArrayRef) (hl : List.length a.shape ≤ ts.length)
    (hk : ∀ d ∈ a.shape, Known d) (h : convertShapeAssert ts a.shape = true) :
    ∃ extra : List Dim, (∀ d ∈ extra, d.extent = 1) ∧
      (a.convertShape ts).shape = List.append a.shape extra ∧
      (∀ i, InBox a.shape i → InBox (a.convertShape ts).shape (i ++ extra.map Dim.min) ∧
        (a.convertShape ts).at_ (i ++ extra.map Dim.min) = a.at_ i) ∧
      (∀ j, InBox (a.convertShape ts).shape j → ∃ i, InBox a.shape i ∧ j = i ++ extra.map Dim.min) := by
  obtain ⟨h1, h2⟩ := convertDims_raise hl hk h
  refine ⟨_, h2, h1, ?_, ?_⟩
  · intro i hi
    have hil := inBox_length hi
    unfold ArrayRef.convertShape ArrayRef.at_ Nda.convertShape
    simp only [flatOffset_eq, h1]
    refine ⟨(inBox_append hil).2 ⟨hi, (inBox_ones h2 _).2 rfl⟩, ?_⟩
    have := offsetOf_append (s := a.shape) (t := (ts.drop (List.length a.shape)).map fun t =>
      t.convert (t.ofExtent 1)) (j := ((ts.drop (List.length a.shape)).map fun t =>
      t.convert (t.ofExtent 1)).map Dim.min) hil
    rw [offsetOf_mins, add_zero] at this
    show Option.map (fun x => x + offsetOf (a.shape ++ _) _) _ = _
    rw [this]
  · intro j hj
    unfold ArrayRef.convertShape Nda.convertShape at hj
    simp only [h1] at hj
    have hj : InBox (a.shape ++ (ts.drop (List.length a.shape)).map fun t =>
      t.convert (t.ofExtent 1)) j := hj
    have hjl := inBox_length hj
    rw [List.length_append] at hjl
    rw [← List.take_append_drop (List.length a.shape) j] at hj
    rw [inBox_append (by rw [List.length_take]; omega)] at hj
    refine ⟨_, hj.1, ?_⟩
    rw [← (inBox_ones h2 _).1 hj.2, List.take_append_drop]

theorem convertDims_lower {ts : List DimT} {src : Shape} (hl : ts.length ≤ List.length src)
    (hk : ∀ d ∈ src, Known d) (h : convertShapeAssert ts src = true) :
    convertDims ts src = List.take ts.length src ∧ ∀ d ∈ List.drop ts.length src, d.extent = 1 := by
  unfold convertShapeAssert at h
  rw [Bool.and_eq_true, all_iff] at h
  obtain ⟨h0, h⟩ := h
  constructor
  · apply List.ext_getElem
    · simp [convertDims]; omega
    · intro i h1 h2
      have hit : i < ts.length := by simpa [convertDims] using h1
      have his : i < List.length src := by omega
      have hb := h _ (List.mem_map_of_mem (f := fun i => (decide (i < List.length src) ||
        (ts.getD i default).ofExtentAssert 1) && (ts.getD i default).convertAssert (convertDim ts src i))
        (List.mem_range.2 hit))
      have hcd : convertDim ts src i = src[i] := by
        unfold convertDim; rw [if_pos his, List.getD_eq_getElem _ _ his]
      simp only [List.getD_eq_getElem _ _ hit, hcd, his, decide_true, Bool.true_or,
        Bool.true_and] at hb
      have hget : (convertDims ts src)[i] = (ts[i]).convert (convertDim ts src i) := by
        simp [convertDims, hit]
      rw [hget, List.getElem_take, hcd]
      obtain ⟨e1, e2, e3⟩ := convert_of_convertible ((convertAssert_iff _ _).1 hb)
      have e4 : ((ts[i]).convert src[i]).stride = src[i].stride := by
        rcases e3 with e3 | ⟨e3, _⟩
        · exact e3
        · exact absurd e3 (hk _ (List.getElem_mem his))
      generalize (ts[i]).convert src[i] = x at *
      generalize src[i] = y at *
      cases x; cases y; simp_all
  · intro d hd
    obtain ⟨j, hj, rfl⟩ := List.getElem_of_mem hd
    rw [List.length_drop] at hj
    rw [List.getElem_drop]
    unfold isTrivialSlice at h0
    rw [all_iff] at h0
    have := h0 _ (List.mem_map_of_mem (f := fun i => decide (i < ts.length) ||
      (src.getD i default).extent == 1) (List.mem_range.2 (show ts.length + j < _ by omega)))
    rw [List.getD_eq_getElem _ _ (show ts.length + j < List.length src by omega)] at this
    simpa using this

/-- C30: lowering the rank.  If the assertions pass, the dropped dims have a single index, and the
elements of the result are exactly the elements of the source, at the same addresses. -/
theorem C30_lower (ts : List DimT) (a : ArrayRef) (hl : ts.length ≤ List.length a.shape)
    (hk : ∀ d ∈ a.shape, Known d) (h : convertShapeAssert ts a.shape = true) :
    (a.convertShape ts).shape = List.take ts.length a.shape ∧
    ∃ tail : Index,
      (∀ j, InBox (a.convertShape ts).shape j → InBox a.shape (j ++ tail) ∧
        a.at_ (j ++ tail) = (a.convertShape ts).at_ j) ∧
      (∀ i, InBox a.shape i → ∃ j, InBox (a.convertShape ts).shape j ∧ i = j ++ tail) := by
  obtain ⟨h1, h2⟩ := convertDims_lower hl hk h
  refine ⟨h1, (List.drop ts.length a.shape).map Dim.min, ?_, ?_⟩
  · intro j hj
    have hj : InBox (convertDims ts a.shape) j := hj
    rw [h1] at hj
    have hjl := inBox_length hj
    have happ : a.shape = List.take ts.length a.shape ++ List.drop ts.length a.shape :=
      (List.take_append_drop _ _).symm
    constructor
    · rw [happ]
      rw [inBox_append hjl]
      refine ⟨hj, ?_⟩
      rw [← happ]
      exact (inBox_ones h2 _).2 rfl
    · unfold ArrayRef.convertShape ArrayRef.at_ Nda.convertShape
      simp only [flatOffset_eq, h1]
      have := offsetOf_append (s := List.take ts.length a.shape) (t := List.drop ts.length a.shape)
        (j := (List.drop ts.length a.shape).map Dim.min) hjl
      rw [offsetOf_mins, add_zero, ← happ] at this
      rw [this]
  · intro i hi
    have hil := inBox_length hi
    have happ : a.shape = List.take ts.length a.shape ++ List.drop ts.length a.shape :=
      (List.take_append_drop _ _).symm
    have hi' := hi
    rw [happ, ← List.take_append_drop ts.length i] at hi'
    rw [inBox_append (by rw [List.length_take, List.length_take, hil])] at hi'
    refine ⟨List.take ts.length i, ?_, ?_⟩
    · show InBox (convertDims ts a.shape) _
      rw [h1]; exact hi'.1
    · rw [← (inBox_ones h2 _).1 hi'.2, List.take_append_drop]

/-- A 3-channel image seen with an extra, fourth dim, and back. -/
example : convertShapeAssert [DimT.any, DimT.any, ⟨0, 3, 1⟩, DimT.any] [⟨0, 5, 3⟩, ⟨0, 7, 15⟩, ⟨0, 3, 1⟩]
    = true ∧ convertShape [DimT.any, DimT.any, ⟨0, 3, 1⟩, DimT.any] [⟨0, 5, 3⟩, ⟨0, 7, 15⟩, ⟨0, 3, 1⟩] =
    [⟨0, 5, 3⟩, ⟨0, 7, 15⟩, ⟨0, 3, 1⟩, ⟨0, 1, unresolved⟩] := by decide
example : convertShapeAssert [DimT.any, DimT.any] [⟨0, 5, 3⟩, ⟨0, 7, 15⟩, ⟨4, 1, 1⟩] = true ∧
    convertShapeAssert [DimT.any, DimT.any] [⟨0, 5, 3⟩, ⟨0, 7, 15⟩, ⟨4, 2, 1⟩] = false := by decide

end Nda
