import Verif.Spec.ResampleImage
import Verif.Lemmas.Compact
import Verif.Props.Ein
import Verif.Props.Algorithms
import Verif.Props.Resample
import Verif.Props.Split
/-
Lemmas about `resample` (C51).
-/
namespace Nda
open Spec
variable {F : Type}

theorem colex_mid {x c r r' : Int} (h : ColexLt [x, r, c] [x, r', c]) : r < r' := by
  obtain ⟨_, k, a, b, ha, hb, hab, _⟩ := h
  match k, ha, hb with
  | 0, ha, hb => simp at ha hb; omega
  | 1, ha, hb => simp at ha hb; omega
  | 2, ha, hb => simp at ha hb; omega

/-- The loop over the middle index, in order. -/
theorem mid_list {l : List Index} {x c : Int} {v : Interval} (hp : l.Pairwise ColexLt)
    (hm : ∀ i, i ∈ l ↔ ∃ r, InInterval v r ∧ i = [x, r, c]) :
    l = (ints v.min v.extent).map fun r => [x, r, c] := by
  have hnd : ((ints v.min v.extent).map fun r => ([x, r, c] : Index)).Nodup := by
    refine List.Nodup.map (fun a b h => by simpa using h) ?_
    exact (ints_pairwise _ _).imp fun h => ne_of_lt h
  have hperm := pairwise_perm hp hnd (fun i => by
    rw [hm, List.mem_map]
    constructor
    · rintro ⟨r, hr, rfl⟩; exact ⟨r, mem_ints.1 hr, rfl⟩
    · rintro ⟨r, hr, rfl⟩; exact ⟨r, mem_ints.2 hr, rfl⟩)
  refine List.Perm.eq_of_pairwise ?_ hp ?_ hperm
  · intro a b ha hb hab hba
    obtain ⟨r, _, rfl⟩ := List.mem_map.1 hb
    obtain ⟨r', _, rfl⟩ := (hm _).1 ha
    have := colex_mid hab
    have := colex_mid hba
    omega
  · rw [List.pairwise_map]
    exact (ints_pairwise _ _).imp fun h => ColexLt.cons (ColexLt.cons_of_lt h)

theorem pixelAddress_eq (a : Image3) (b x y c : Int) :
    pixelAddress a b x y c = b + offsetOf (values a.dims) [x, y, c] := by
  simp only [pixelAddress, values, Image3.dims, List.map_cons, List.map_nil, offsetOf]
  ring

theorem requireAssert_true (debug : Bool) : requireAssert debug true = some () := by
  cases debug <;> rfl

/-- What is needed to reduce one row. -/
structure RowInput (in_ out : Image3) (bi bo : Int) (y : Int) (k : Dense1 F) (ka : Int) : Prop where
  inBase : in_.base = some bi
  outBase : out.base = some bo
  inFits : Fits in_.x.ty in_.x.val ∧ Fits in_.y.ty in_.y.val ∧ Fits in_.c.ty in_.c.val
  outFits : Fits out.x.ty out.x.val ∧ Fits out.c.ty out.c.val
  pos : 0 ≤ out.x.val.extent ∧ 0 ≤ out.c.val.extent ∧ 0 ≤ k.dom.extent
  strides : out.x.val.stride ≠ 0 ∧ out.c.val.stride ≠ 0
  xs : in_.x.val.min ≤ out.x.val.min ∧
    out.x.val.min + out.x.val.extent ≤ in_.x.val.min + in_.x.val.extent
  cs : in_.c.val.min ≤ out.c.val.min ∧
    out.c.val.min + out.c.val.extent ≤ in_.c.val.min + in_.c.val.extent
  ys : ∀ r, InInterval k.dom r → inRangeOf in_.y r
  inj : ∀ x c x' c', inRangeOf out.x x → inRangeOf out.c c → inRangeOf out.x x' → inRangeOf out.c c' →
    pixelAddress out bo x y c = pixelAddress out bo x' y c' → x = x' ∧ c = c'
  sepIn : ∀ x c x' r c', inRangeOf out.x x → inRangeOf out.c c → inRangeOf in_.x x' →
    inRangeOf in_.y r → inRangeOf in_.c c' → pixelAddress out bo x y c ≠ pixelAddress in_ bi x' r c'
  sepK : ∀ x c r, inRangeOf out.x x → inRangeOf out.c c → InInterval k.dom r →
    pixelAddress out bo x y c ≠ ka + (r - k.dom.min)

theorem ne_dynamic_kernelDim (k : Dense1 F) : Fits (kernelDim k).ty (kernelDim k).val := by
  refine ⟨fun h => absurd rfl h, fun h => absurd rfl h, fun _ => rfl⟩

theorem rangeInterval_val {c d : SDim} (hc : Describes c.ty.min c.val.min ∧ Describes c.ty.extent c.val.extent)
    (hd : Fits d.ty d.val) :
    (SDim.rangeInterval c d).val = ⟨c.val.min, c.val.extent, d.val.stride⟩ ∧
    Fits (SDim.rangeInterval c d).ty (SDim.rangeInterval c d).val := by
  obtain ⟨h1, h2⟩ := hc
  obtain ⟨_, _, h3⟩ := hd
  unfold Describes at h1 h2 h3
  have ci : ∀ V v : Int, (V ≠ -9 → v = V) → ciInit V v = v := by
    intro V v h
    unfold ciInit
    split
    · rename_i hs
      have : V ≠ -9 := by simpa [isStatic, dynamic] using hs
      exact (h this).symm
    · rfl
  have e : (SDim.rangeInterval c d).val = ⟨c.val.min, c.val.extent, d.val.stride⟩ := by
    simp only [SDim.rangeInterval, DimT.make, ci _ _ h1, ci _ _ h2, ci _ _ h3]
  refine ⟨e, ?_⟩
  rw [e]
  exact ⟨h1, h2, h3⟩

theorem reconcile_same {a b : SDim} (h1 : a.val.min = b.val.min) (h2 : a.val.extent = b.val.extent) :
    reconcileAssert [a, b] = true := by
  dsimp only [reconcileAssert]
  split
  · simp only [List.map_cons, List.map_nil, all_iff, List.mem_cons,
      List.not_mem_nil, or_false, forall_eq, Dim.isInRangeI, Interval.max, Dim.max, Dim.toInterval,
      Bool.and_eq_true]
    exact ⟨decide_eq_true (by omega), decide_eq_true (by omega)⟩
  · simp only [List.map_cons, List.map_nil, all_iff, List.mem_cons,
      List.not_mem_nil, or_false, forall_eq, Bool.and_eq_true, beq_iff_eq]
    exact ⟨h1, h2⟩

/-- The three operands of the reduction of one row. -/
def rowLhs (out : Image3) (bo y : Int) : EinOp F :=
  ⟨.arr (some (bo + (y - out.y.val.min) * out.y.val.stride)) [out.x, out.c], [0, 2]⟩

def rowIn (in_ : Image3) (bi : Int) (k : Dense1 F) : EinOp F :=
  ⟨.arr (some (bi + (k.dom.min - in_.y.val.min) * in_.y.val.stride))
    [in_.x, SDim.rangeInterval (kernelDim k) in_.y, in_.c], [0, 1, 2]⟩

def rowK (k : Dense1 F) (ka : Int) : EinOp F := ⟨.arr (some ka) [kernelDim k], [1]⟩

section
variable {in_ out : Image3} {bi bo y : Int} {k : Dense1 F} {ka : Int}

theorem rowIn_range (h : RowInput in_ out bi bo y k ka) :
    (SDim.rangeInterval (kernelDim k) in_.y).val = ⟨k.dom.min, k.dom.extent, in_.y.val.stride⟩ ∧
    Fits (SDim.rangeInterval (kernelDim k) in_.y).ty (SDim.rangeInterval (kernelDim k) in_.y).val :=
  rangeInterval_val ⟨fun h => absurd rfl h, fun h => absurd rfl h⟩ h.inFits.2.1

theorem row_typed (h : RowInput in_ out bi bo y k ka) (mul : F → F → F) :
    ∀ o ∈ rowLhs out bo y :: leaves (.binary mul (.op (rowIn in_ bi k)) (.op (rowK k ka))), OpTyped o := by
  intro o ho
  simp only [leaves, List.cons_append, List.nil_append, List.mem_cons, List.not_mem_nil, or_false] at ho
  rcases ho with rfl | rfl | rfl
  · refine ⟨rfl, fun d hd => ?_⟩
    simp only [List.mem_cons, List.not_mem_nil, or_false] at hd
    rcases hd with rfl | rfl
    · exact h.outFits.1
    · exact h.outFits.2
  · refine ⟨rfl, fun d hd => ?_⟩
    simp only [List.mem_cons, List.not_mem_nil, or_false] at hd
    rcases hd with rfl | rfl | rfl
    · exact h.inFits.1
    · exact (rowIn_range h).2
    · exact h.inFits.2.2
  · refine ⟨rfl, fun d hd => ?_⟩
    simp only [List.mem_cons, List.not_mem_nil, or_false] at hd
    subst hd
    exact ne_dynamic_kernelDim k

theorem row_assert (h : RowInput in_ out bi bo y k ka) (mul : F → F → F) :
    einAssert (rowLhs out bo y) (.binary mul (.op (rowIn in_ bi k)) (.op (rowK k ka))) = true := by
  rw [einAssert_iff]
  intro t ht
  have ht : t < 3 := ht
  obtain ⟨hx, hc⟩ := h.strides
  have hr := rowIn_range h
  have w0 := withStride_val 0 h.inFits.1
  have w1 := withStride_val 0 hr.2
  have w2 := withStride_val 0 h.inFits.2.2
  have w3 := withStride_val 0 (ne_dynamic_kernelDim k)
  have hxs := h.xs
  have hcs := h.cs
  match t, ht with
  | 0, _ =>
    show reconcileAssert [out.x, in_.x.withStride 0] = true
    simp only [reconcileAssert, if_pos hx, List.map_cons, List.map_nil, all_iff, List.mem_cons,
      List.not_mem_nil, or_false, forall_eq, Dim.isInRangeI, Interval.max, Dim.max, Dim.toInterval,
      Bool.and_eq_true, w0]
    exact ⟨decide_eq_true (by omega), decide_eq_true (by omega)⟩
  | 1, _ =>
    show reconcileAssert [(SDim.rangeInterval (kernelDim k) in_.y).withStride 0, (kernelDim k).withStride 0] = true
    exact reconcile_same (by rw [w1.1, w3.1, hr.1]; rfl) (by rw [w1.2, w3.2, hr.1]; rfl)
  | 2, _ =>
    show reconcileAssert [out.c, in_.c.withStride 0] = true
    simp only [reconcileAssert, if_pos hc, List.map_cons, List.map_nil, all_iff, List.mem_cons,
      List.not_mem_nil, or_false, forall_eq, Dim.isInRangeI, Interval.max, Dim.max, Dim.toInterval,
      Bool.and_eq_true, w2]
    exact ⟨decide_eq_true (by omega), decide_eq_true (by omega)⟩

theorem row_input (h : RowInput in_ out bi bo y k ka) (mul : F → F → F) :
    EinInput (rowLhs out bo y) (.binary mul (.op (rowIn in_ bi k)) (.op (rowK k ka))) := by
  have hr := rowIn_range h
  refine ⟨row_typed h mul, ?_, ?_, ?_, ?_, ?_⟩
  · intro o ho
    simp only [leaves, List.cons_append, List.nil_append, List.mem_cons, List.not_mem_nil, or_false] at ho
    rcases ho with rfl | rfl | rfl
    · intro d hd
      simp only [rowLhs, einDims, List.map_cons, List.map_nil, List.mem_cons, List.not_mem_nil, or_false] at hd
      rcases hd with rfl | rfl
      · exact h.pos.1
      · exact h.pos.2.1
    · intro d hd
      simp only [rowIn, einDims, List.map_cons, List.map_nil, List.mem_cons, List.not_mem_nil, or_false] at hd
      rcases hd with rfl | rfl | rfl
      · have := h.xs; have := h.pos; omega
      · rw [hr.1]; exact h.pos.2.2
      · have := h.cs; have := h.pos; omega
    · intro d hd
      simp only [rowK, einDims, List.map_cons, List.map_nil, List.mem_cons, List.not_mem_nil, or_false] at hd
      subst hd
      exact h.pos.2.2
  · intro o ho
    simp only [leaves, List.cons_append, List.nil_append, List.mem_cons, List.not_mem_nil, or_false] at ho
    rcases ho with rfl | rfl | rfl <;> exact C42_no_repeat _ (by simp [rowLhs, rowIn, rowK])
  · intro o ho
    simp only [leaves, List.cons_append, List.nil_append, List.mem_cons, List.not_mem_nil, or_false] at ho
    rcases ho with rfl | rfl | rfl <;> (intro hb; cases hb)
  · intro i j hi hj e
    match i, j, hi, hj with
    | [x, c], [x', c'], hi, hj =>
      have e' := h.inj x c x' c' hi.1 hi.2.1 hj.1 hj.2.1 (by
        simp only [rowLhs, einDims, List.map_cons, List.map_nil, offsetOf] at e
        simp only [pixelAddress]
        omega)
      rw [e'.1, e'.2]
  · rintro o ho a ⟨b, i, hb, hi, rfl⟩ hel
    match i, hi with
    | [x, c], hi =>
      simp only [leaves, List.cons_append, List.nil_append, List.mem_cons, List.not_mem_nil, or_false] at ho
      cases hb
      rcases ho with rfl | rfl
      · obtain ⟨b, j, hb, hj, e⟩ := hel
        cases hb
        simp only [List.map_cons, List.map_nil, hr.1] at hj e
        match j, hj with
        | [x', r, c'], hj =>
          refine h.sepIn x c x' r c' hi.1 hi.2.1 hj.1 (h.ys r hj.2.1) hj.2.2.1 ?_
          simp only [List.map_cons, List.map_nil, offsetOf] at e
          simp only [pixelAddress]
          have e2 : (r - in_.y.val.min) * in_.y.val.stride = (k.dom.min - in_.y.val.min) * in_.y.val.stride +
              (r - k.dom.min) * in_.y.val.stride := by ring
          omega
      · obtain ⟨b, j, hb, hj, e⟩ := hel
        cases hb
        match j, hj with
        | [r], hj =>
          refine h.sepK x c r hi.1 hi.2.1 hj.1 ?_
          simp only [List.map_cons, List.map_nil, offsetOf, kernelDim] at e
          simp only [pixelAddress]
          omega

/-- One row. -/
theorem resampleRow_spec (o : FloatOps F) (debug : Bool) {ks : Dense1 (Dense1 F)} {kaddr : Int → Int}
    (m : Mem F) (hy : InInterval ks.dom y) (hk : ks.data y = k) (hka : kaddr y = ka)
    (h : RowInput in_ out bi bo y k ka)
    (hkm : ∀ r, InInterval k.dom r → m (ka + (r - k.dom.min)) = k.data r) :
    ∃ m', resampleRow o debug in_ out ks kaddr m y = some m' ∧
      (∀ x c, inRangeOf out.x x → inRangeOf out.c c → m' (pixelAddress out bo x y c) =
        kernelSum o k fun r => m (pixelAddress in_ bi x r c)) ∧
      ∀ p, (∀ x c, inRangeOf out.x x → inRangeOf out.c c → p ≠ pixelAddress out bo x y c) → m' p = m p := by
  have hsl : out.sliceYBase y = some (bo + (y - out.y.val.min) * out.y.val.stride) := by
    unfold Image3.sliceYBase pointerAdd
    rw [h.outBase, flatOffset_eq]
    simp [values, Image3.dims, offsetOf]
  have hcr : (in_.cropY (kernelDim k)).base = some (bi + (k.dom.min - in_.y.val.min) * in_.y.val.stride) := by
    unfold Image3.cropY pointerAdd
    rw [h.inBase, flatOffset_eq]
    simp [values, Image3.dims, offsetOf, kernelDim]
  have hnn : NonNeg (values [out.x, out.c]) := by
    intro d hd
    simp only [values, List.map_cons, List.map_nil, List.mem_cons, List.not_mem_nil, or_false] at hd
    rcases hd with rfl | rfl
    · exact h.pos.1
    · exact h.pos.2.1
  obtain ⟨f1, f2⟩ := C19_fill ⟨out.sliceYBase y, values [out.x, out.c]⟩ _ hsl hnn o.zero m
  set m1 := fill ⟨out.sliceYBase y, values [out.x, out.c]⟩ o.zero m with hm1
  have hoff : ∀ x c, bo + (y - out.y.val.min) * out.y.val.stride + offsetOf (values [out.x, out.c]) [x, c] =
      pixelAddress out bo x y c := by
    intro x c
    simp only [values, List.map_cons, List.map_nil, offsetOf, pixelAddress]
    omega
  have hzero : ∀ x c, inRangeOf out.x x → inRangeOf out.c c → m1 (pixelAddress out bo x y c) = o.zero := by
    intro x c hx hc
    rw [← hoff]
    exact f1 [x, c] ⟨hx, hc, trivial⟩
  have hsame : ∀ p, (∀ x c, inRangeOf out.x x → inRangeOf out.c c → p ≠ pixelAddress out bo x y c) →
      m1 p = m p := by
    intro p hp
    apply f2
    intro i hi
    match i, hi with
    | [x, c], hi =>
      rw [hoff]
      exact hp x c hi.1 hi.2.1
  obtain ⟨m', e1, e2, e3⟩ := C41_fold o.add (rowLhs out bo y)
    (.binary o.mul (.op (rowIn in_ bi k)) (.op (rowK k ka))) m1 (row_input h o.mul) (row_assert h o.mul)
    _ _ rfl
  refine ⟨m', ?_, ?_, ?_⟩
  · unfold resampleRow
    rw [Dense1.get_some hy, hk]
    simp only [Option.bind_eq_bind, Option.bind_some, hka]
    rw [← hm1, hsl, hcr]
    have ha := row_assert (F := F) h o.mul
    unfold einReduceDebug
    unfold rowLhs rowIn rowK at ha e1
    simp only [Image3.cropY, Image3.dims] at ha e1 ⊢
    rw [ha, requireAssert_true]
    exact e1
  · intro x c hx hc
    obtain ⟨l, l1, l2, l3⟩ := e2 [x, c] ⟨hx, hc, trivial⟩
    have hl := mid_list (l := l) (x := x) (c := c) (v := k.dom) l1 (by
      intro i
      rw [l2]
      have hrank : loopRank (rowLhs out bo y :: leaves (.binary o.mul (.op (rowIn in_ bi k)) (.op (rowK k ka)))) = 3 := rfl
      constructor
      · rintro ⟨⟨hlen, hr, _⟩, hp⟩
        rw [hrank] at hlen
        match i, hlen with
        | [a, r, d], _ =>
          simp only [rowLhs, pick, List.map_cons, List.map_nil, List.getD_cons_zero, List.getD_cons_succ,
            List.cons.injEq, and_true] at hp
          obtain ⟨rfl, rfl⟩ := hp
          have := hr (rowK k ka) (by simp [leaves])
          exact ⟨r, this.1, rfl⟩
      · rintro ⟨r, hr, rfl⟩
        refine ⟨⟨rfl, ?_, ?_⟩, rfl⟩
        · intro o ho
          simp only [leaves, List.cons_append, List.nil_append, List.mem_cons, List.not_mem_nil, or_false] at ho
          rcases ho with rfl | rfl | rfl
          · exact ⟨hx, hc, trivial⟩
          · have hxs := h.xs
            have hcs := h.cs
            have hx' := hx
            have hc' := hc
            unfold inRangeOf at hx' hc'
            show InBox [in_.x.val, (SDim.rangeInterval (kernelDim k) in_.y).val, in_.c.val] [x, r, c]
            rw [(rowIn_range h).1]
            exact ⟨by omega, hr, by omega, trivial⟩
          · exact ⟨hr, trivial⟩
        · intro t ht hu
          rw [hrank] at ht
          exfalso
          refine hu (rowIn in_ bi k) (by simp [leaves]) ?_
          show t ∈ [0, 1, 2]
          simp
          omega)
    rw [← hoff]
    refine l3.trans ?_
    have hz : m1 (bo + (y - out.y.val.min) * out.y.val.stride +
        offsetOf (List.map SDim.val [out.x, out.c]) [x, c]) = o.zero := by
      have := hzero x c hx hc
      rw [← hoff] at this
      exact this
    rw [hz, hl, List.foldl_map]
    unfold kernelSum
    have hints : (List.range k.dom.extent.toNat).map (fun j : Nat => k.dom.min + (j : Int)) =
        ints k.dom.min k.dom.extent := rfl
    rw [hints]
    refine List.foldl_ext _ _ _ fun s r hr => ?_
    have hr := mem_ints.1 hr
    congr 1
    simp only [valueAt, rowIn, rowK]
    have hxs := h.xs
    have hcs := h.cs
    have hx' := hx
    have hc' := hc
    unfold inRangeOf at hx' hc'
    congr 1
    · have : (some (bi + (k.dom.min - in_.y.val.min) * in_.y.val.stride)).getD 0 + offsetOf
          (List.map SDim.val [in_.x, SDim.rangeInterval (kernelDim k) in_.y, in_.c]) (pick [0, 1, 2] [x, r, c]) =
          pixelAddress in_ bi x r c := by
        simp only [pick, List.map_cons, List.map_nil, List.getD_cons_zero, List.getD_cons_succ, offsetOf,
          (rowIn_range h).1, pixelAddress, Option.getD_some]
        ring
      rw [this]
      apply hsame
      intro x' c' hx2 hc2 e
      exact h.sepIn x' c' x r c hx2 hc2 (by unfold inRangeOf; omega) (h.ys r hr) (by unfold inRangeOf; omega) e.symm
    · have : (some ka).getD 0 + offsetOf (List.map SDim.val [kernelDim k]) (pick [1] [x, r, c]) =
          ka + (r - k.dom.min) := by
        simp [pick, offsetOf, kernelDim]
      rw [this, ← hkm r hr]
      apply hsame
      intro x' c' hx2 hc2 e
      exact h.sepK x' c' r hx2 hc2 hr e.symm
  · intro p hp
    rw [e3 p, hsame p hp]
    rintro ⟨b, i, hb, hi, e⟩
    cases hb
    match i, hi with
    | [x, c], hi =>
      refine hp x c hi.1 hi.2.1 ?_
      rw [← hoff]
      exact e

/-- All rows. -/
theorem resampleRows_spec (o : FloatOps F) (debug : Bool) {ks : Dense1 (Dense1 F)} {kaddr : Int → Int}
    (hinj : ∀ x y c x' y' c', inRangeOf out.x x → inRangeOf out.y y → inRangeOf out.c c →
      inRangeOf out.x x' → inRangeOf out.y y' → inRangeOf out.c c' →
      pixelAddress out bo x y c = pixelAddress out bo x' y' c' → x = x' ∧ y = y' ∧ c = c')
    (ys : List Int) :
    ∀ (m : Mem F), (∀ y ∈ ys, inRangeOf out.y y ∧ InInterval ks.dom y ∧
      RowInput in_ out bi bo y (ks.data y) (kaddr y)) →
    (∀ y ∈ ys, ∀ r, InInterval (ks.data y).dom r → m (kernelAddress ks kaddr y r) = (ks.data y).data r) →
    (∀ y ∈ ys, ∀ y' ∈ ys, ∀ x c r, inRangeOf out.x x → inRangeOf out.c c →
      InInterval (ks.data y').dom r → pixelAddress out bo x y c ≠ kernelAddress ks kaddr y' r) →
    ∃ m', ys.foldlM (resampleRow o debug in_ out ks kaddr) m = some m' ∧
      (∀ x y c, y ∈ ys → inRangeOf out.x x → inRangeOf out.c c → m' (pixelAddress out bo x y c) =
        kernelSum o (ks.data y) fun r => m (pixelAddress in_ bi x r c)) ∧
      ∀ p, (∀ x y c, y ∈ ys → inRangeOf out.x x → inRangeOf out.c c → p ≠ pixelAddress out bo x y c) →
        m' p = m p := by
  induction ys with
  | nil => intro m _ _ _; exact ⟨m, rfl, by simp, fun _ _ => rfl⟩
  | cons y ys ih =>
    intro m hrow hk hsep
    obtain ⟨hy, hyk, hri⟩ := hrow y (by simp)
    obtain ⟨m1, e1, v1, f1⟩ := resampleRow_spec o debug (kaddr := kaddr) m hyk rfl rfl hri (hk y (by simp))
    obtain ⟨m2, e2, v2, f2⟩ := ih m1 (fun z hz => hrow z (by simp [hz])) (by
        intro z hz r hr
        rw [f1, hk z (by simp [hz]) r hr]
        intro x c hx hc e
        exact hsep y (by simp) z (by simp [hz]) x c r hx hc hr e.symm)
      (fun z hz z' hz' => hsep z (by simp [hz]) z' (by simp [hz']))
    refine ⟨m2, ?_, ?_, ?_⟩
    · rw [List.foldlM_cons, e1]; exact e2
    · intro x z c hz hx hc
      by_cases hz2 : z ∈ ys
      · rw [v2 x z c hz2 hx hc]
        obtain ⟨hzy, hzk, hrz⟩ := hrow z (by simp [hz2])
        unfold kernelSum
        refine List.foldl_ext _ _ _ fun s r hr => ?_
        have hr : InInterval (ks.data z).dom r := mem_ints.1 hr
        congr 2
        apply f1
        intro x' c' hx' hc' e
        have hxs := hri.xs
        have hcs := hri.cs
        have hx2 := hx
        have hc2 := hc
        unfold inRangeOf at hx2 hc2
        exact hri.sepIn x' c' x r c hx' hc' (by unfold inRangeOf; omega) (hrz.ys r hr)
          (by unfold inRangeOf; omega) e.symm
      · have hzy : z = y := by
          rcases List.mem_cons.1 hz with h | h
          · exact h
          · exact absurd h hz2
        subst hzy
        rw [f2, v1 x c hx hc]
        intro x' y' c' hy' hx' hc' e
        have := hinj x z c x' y' c' hx hy hc hx' (hrow y' (by simp [hy'])).1 hc' e
        exact hz2 (this.2.1 ▸ hy')
    · intro p hp
      rw [f2 p fun x y' c hy' => hp x y' c (by simp [hy']), f1 p fun x c => hp x y c (by simp)]

end

/-- `resample_y`. -/
theorem resampleY_spec (o : FloatOps F) (debug : Bool) {in_ out : Image3} {bi bo : Int}
    {ks : Dense1 (Dense1 F)} {kaddr : Int → Int}
    (hinj : ∀ x y c x' y' c', inRangeOf out.x x → inRangeOf out.y y → inRangeOf out.c c →
      inRangeOf out.x x' → inRangeOf out.y y' → inRangeOf out.c c' →
      pixelAddress out bo x y c = pixelAddress out bo x' y' c' → x = x' ∧ y = y' ∧ c = c')
    (hbi : in_.base = some bi) (hbo : out.base = some bo)
    (hin : ProperDim in_.x ∧ ProperDim in_.y ∧ ProperDim in_.c)
    (hout : ProperDim out.x ∧ ProperDim out.y ∧ ProperDim out.c)
    (hst : out.x.val.stride ≠ 0 ∧ out.c.val.stride ≠ 0)
    (hxs : ∀ x, inRangeOf out.x x → inRangeOf in_.x x) (hcs : ∀ c, inRangeOf out.c c → inRangeOf in_.c c)
    (hks : ∀ y, inRangeOf out.y y → InInterval ks.dom y ∧ 0 ≤ (ks.data y).dom.extent ∧
      ∀ r, InInterval (ks.data y).dom r → inRangeOf in_.y r)
    (sepIn : ∀ p, PixelOf out bo p → ¬ PixelOf in_ bi p)
    (sepK : ∀ p, PixelOf out bo p → ¬ KernelCell ks kaddr p)
    (m : Mem F)
    (hkm : ∀ y r, inRangeOf out.y y → InInterval (ks.data y).dom r →
      m (kernelAddress ks kaddr y r) = (ks.data y).data r) :
    ∃ m', resampleY o debug in_ out ks kaddr m = some m' ∧
      (∀ x y c, inRangeOf out.x x → inRangeOf out.y y → inRangeOf out.c c →
        m' (pixelAddress out bo x y c) =
          kernelSum o (ks.data y) fun r => m (pixelAddress in_ bi x r c)) ∧
      ∀ p, ¬ PixelOf out bo p → m' p = m p := by
  have bounds : ∀ {a b : SDim}, 0 < a.val.extent → (∀ x, inRangeOf a x → inRangeOf b x) →
      b.val.min ≤ a.val.min ∧ a.val.min + a.val.extent ≤ b.val.min + b.val.extent := by
    intro a b ha h
    have h1 := h a.val.min ⟨le_refl _, by omega⟩
    have h2 := h (a.val.min + a.val.extent - 1) ⟨by omega, by omega⟩
    unfold inRangeOf at h1 h2
    omega
  have hmem : ∀ y, y ∈ ints out.y.val.min out.y.val.extent ↔ inRangeOf out.y y := fun y => mem_ints
  obtain ⟨m', e, v, f⟩ := resampleRows_spec (in_ := in_) (bi := bi) o debug (kaddr := kaddr) hinj
    (ints out.y.val.min out.y.val.extent) m (by
      intro y hy
      have hy := (hmem y).1 hy
      obtain ⟨k1, k2, k3⟩ := hks y hy
      refine ⟨hy, k1, hbi, hbo, ⟨hin.1.1, hin.2.1.1, hin.2.2.1⟩, ⟨hout.1.1, hout.2.2.1⟩,
        ⟨hout.1.2.le, hout.2.2.2.le, k2⟩, hst, bounds hout.1.2 hxs, bounds hout.2.2.2 hcs, k3, ?_, ?_, ?_⟩
      · intro x c x' c' hx hc hx' hc' e
        have := hinj x y c x' y c' hx hy hc hx' hy hc' e
        exact ⟨this.1, this.2.2⟩
      · intro x c x' r c' hx hc hx' hr hc' e
        exact sepIn _ ⟨x, y, c, hx, hy, hc, rfl⟩ ⟨x', r, c', hx', hr, hc', e⟩
      · intro x c r hx hc hr e
        exact sepK _ ⟨x, y, c, hx, hy, hc, rfl⟩ ⟨y, r, ⟨k1, hr⟩, e⟩)
    (fun y hy r hr => hkm y r ((hmem y).1 hy) hr)
    (by
      intro y hy y' hy' x c r hx hc hr e
      exact sepK _ ⟨x, y, c, hx, (hmem y).1 hy, hc, rfl⟩
        ⟨y', r, ⟨(hks y' ((hmem y').1 hy')).1, hr⟩, e⟩)
  refine ⟨m', ?_, fun x y c hx hy hc => v x y c ((hmem y).2 hy) hx hc, fun p hp => f p ?_⟩
  · unfold resampleY
    rw [Interval.iterate_eq (v := out.y.val.toInterval) hout.2.1.2.le]
    exact e
  · rintro x y c hy hx hc rfl
    exact hp ⟨x, y, c, hx, (hmem y).1 hy, hc, rfl⟩

/-- Exchanging the first two dims. -/
theorem transposed_spec (debug : Bool) {a b : Image3} {ba bb : Int}
    (hinj : ∀ x y c x' y' c', inRangeOf a.x x → inRangeOf a.y y → inRangeOf a.c c →
      inRangeOf a.x x' → inRangeOf a.y y' → inRangeOf a.c c' →
      pixelAddress a ba x y c = pixelAddress a ba x' y' c' → x = x' ∧ y = y' ∧ c = c')
    (hba : a.base = some ba) (hbb : b.base = some bb)
    (ha : ProperDim a.x ∧ ProperDim a.y ∧ ProperDim a.c)
    (hb : ProperDim b.x ∧ ProperDim b.y ∧ ProperDim b.c)
    (hxy : a.x.val.min = b.y.val.min ∧ a.x.val.extent = b.y.val.extent)
    (hyx : a.y.val.min = b.x.val.min ∧ a.y.val.extent = b.x.val.extent)
    (hcc : a.c.val.min = b.c.val.min ∧ a.c.val.extent = b.c.val.extent)
    (sep : ∀ p, PixelOf a ba p → ¬ PixelOf b bb p) (m : Mem F) :
    ∃ m', einReduceDebug debug (fun _ v => v) ⟨.arr a.base a.dims, [0, 1, 2]⟩
        (.op ⟨.arr b.base b.dims, [1, 0, 2]⟩) m = some m' ∧
      (∀ x y c, inRangeOf a.x x → inRangeOf a.y y → inRangeOf a.c c →
        m' (pixelAddress a ba x y c) = m (pixelAddress b bb y x c)) ∧
      ∀ p, ¬ PixelOf a ba p → m' p = m p := by
  rw [hba, hbb]
  set lhs : EinOp F := ⟨.arr (some ba) a.dims, [0, 1, 2]⟩ with hlhs
  set r : EinOp F := ⟨.arr (some bb) b.dims, [1, 0, 2]⟩ with hr
  have hmem : ∀ o, o ∈ lhs :: leaves (.op r) ↔ o = lhs ∨ o = r := by intro o; simp [leaves]
  have hu : Uniform (fun k => if k = 0 then (a.x.val.min, a.x.val.extent) else
      if k = 1 then (a.y.val.min, a.y.val.extent) else (a.c.val.min, a.c.val.extent))
      (lhs :: leaves (.op r)) := by
    intro o ho p k d hp hd
    rcases (hmem o).1 ho with rfl | rfl
    · match p, hp, hd with
      | 0, hp, hd => cases hp; cases hd; exact ⟨rfl, rfl⟩
      | 1, hp, hd => cases hp; cases hd; exact ⟨rfl, rfl⟩
      | 2, hp, hd => cases hp; cases hd; exact ⟨rfl, rfl⟩
    · match p, hp, hd with
      | 0, hp, hd => cases hp; cases hd; exact ⟨hyx.1.symm, hyx.2.symm⟩
      | 1, hp, hd => cases hp; cases hd; exact ⟨hxy.1.symm, hxy.2.symm⟩
      | 2, hp, hd => cases hp; cases hd; exact ⟨hcc.1.symm, hcc.2.symm⟩
  have htyped : ∀ o ∈ lhs :: leaves (.op r), OpTyped o := by
    intro o ho
    rcases (hmem o).1 ho with rfl | rfl
    · refine ⟨rfl, fun d hd => ?_⟩
      simp only [Image3.dims, List.mem_cons, List.not_mem_nil, or_false] at hd
      rcases hd with rfl | rfl | rfl
      exacts [ha.1.1, ha.2.1.1, ha.2.2.1]
    · refine ⟨rfl, fun d hd => ?_⟩
      simp only [Image3.dims, List.mem_cons, List.not_mem_nil, or_false] at hd
      rcases hd with rfl | rfl | rfl
      exacts [hb.1.1, hb.2.1.1, hb.2.2.1]
  have hassert := hu.einAssert htyped
  have hinput : EinInput lhs (.op r) := by
    refine ⟨htyped, ?_, hu.consistent, ?_, ?_, ?_⟩
    · intro o ho
      rcases (hmem o).1 ho with rfl | rfl
      · intro d hd
        simp only [hlhs, einDims, Image3.dims, List.map_cons, List.map_nil, List.mem_cons, List.not_mem_nil, or_false] at hd
        rcases hd with rfl | rfl | rfl
        exacts [ha.1.2.le, ha.2.1.2.le, ha.2.2.2.le]
      · intro d hd
        simp only [hr, einDims, Image3.dims, List.map_cons, List.map_nil, List.mem_cons, List.not_mem_nil, or_false] at hd
        rcases hd with rfl | rfl | rfl
        exacts [hb.1.2.le, hb.2.1.2.le, hb.2.2.2.le]
    · intro o ho
      rcases (hmem o).1 ho with rfl | rfl <;> (intro hb; cases hb)
    · intro i j hi hj e
      match i, j, hi, hj with
      | [x, y, c], [x', y', c'], hi, hj =>
        have := hinj x y c x' y' c' hi.1 hi.2.1 hi.2.2.1 hj.1 hj.2.1 hj.2.2.1 (by
          rw [pixelAddress_eq, pixelAddress_eq]
          congr 1)
        rw [this.1, this.2.1, this.2.2]
    · rintro o ho p ⟨b1, i, hb1, hi, rfl⟩ hel
      cases hb1
      obtain rfl : o = r := by simpa [leaves] using ho
      obtain ⟨b2, j, hb2, hj, e⟩ := hel
      cases hb2
      match i, j, hi, hj with
      | [x, y, c], [x', y', c'], hi, hj =>
        refine sep _ ⟨x, y, c, hi.1, hi.2.1, hi.2.2.1, rfl⟩ ⟨x', y', c', hj.1, hj.2.1, hj.2.2.1, ?_⟩
        rw [pixelAddress_eq, pixelAddress_eq]
        exact e
  obtain ⟨m', e, v, f⟩ := C41_assign lhs (.op r) m hinput hassert ba a.dims rfl
  refine ⟨m', ?_, ?_, ?_⟩
  · unfold einReduceDebug
    rw [hassert, requireAssert_true]
    exact e
  · intro x y c hx hy hc
    have := v [x, y, c] ⟨hx, hy, hc, trivial⟩ [x, y, c] (by
      intro j
      constructor
      · rintro ⟨⟨hlen, _⟩, hp⟩
        have hlen : j.length = 3 := hlen
        match j, hlen with
        | [x', y', c'], _ =>
          simpa [hlhs, pick] using hp
      · rintro rfl
        refine ⟨⟨rfl, ?_, ?_⟩, rfl⟩
        · intro o ho
          rcases (hmem o).1 ho with rfl | rfl
          · exact ⟨hx, hy, hc, trivial⟩
          · unfold inRangeOf at hx hy hc
            exact ⟨by show b.x.val.min ≤ y ∧ y < b.x.val.min + b.x.val.extent; omega,
              by show b.y.val.min ≤ x ∧ x < b.y.val.min + b.y.val.extent; omega,
              by show b.c.val.min ≤ c ∧ c < b.c.val.min + b.c.val.extent; omega, trivial⟩
        · intro t ht hn
          exfalso
          refine hn lhs (by simp) ?_
          have ht : t < 3 := ht
          show t ∈ [0, 1, 2]
          simp
          omega)
    rw [pixelAddress_eq, pixelAddress_eq]
    exact this
  · intro p hp
    apply f
    rintro ⟨b1, i, hb1, hi, rfl⟩
    cases hb1
    match i, hi with
    | [x, y, c], hi =>
      refine hp ⟨x, y, c, hi.1, hi.2.1, hi.2.2.1, ?_⟩
      rw [pixelAddress_eq]; rfl

end Nda
