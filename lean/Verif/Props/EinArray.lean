import Verif.Lemmas.EinArray
import Verif.Props.EinSum
import Verif.Props.ArrayCompare
/-
C72: Einstein reductions as statements of programs with arrays.
-/
namespace Nda
open Spec

variable {V : Type}

/-- C72: `ein_reduce(lhs op= rhs)` in a program with arrays, where `lhs` and the operands are views of arrays.  If its assertions
hold it is executed without undefined behaviour: all elements it reads or assigns are elements of the views, which are alive.  Each
element of the result is the left fold of `op` over the values of the right-hand side for the loop indices that address it, in loop
order, starting from its old value.  All other elements of all arrays are unchanged. -/
theorem C72_reduce (ty : Types V) (hdef : TypesOk ty) (f : V → V → V) (w : World V) (hw : Reachable ty w) (lhs : EinRef)
    (rhs : EinTerm V) (h : EinArrays w lhs rhs) (ha : einAssert lhs.op rhs.expr = true) :
    ∃ (w' : World V) (g : Index → V), einReduceArray ty f lhs rhs w = .ok w' ∧ Reachable ty w' ∧ w'.vars = w.vars ∧ w'.nextVar = w.nextVar ∧
      (∀ i, TermIndex lhs rhs i → termAt w i rhs = .ok (g i)) ∧
      (∀ r, InBox (lhs.dims.map SDim.val) r → ∃ l : List Index, l.Pairwise ColexLt ∧
        (∀ i, i ∈ l ↔ TermIndex lhs rhs i ∧ pick lhs.is i = r) ∧
        refElem w' lhs.x (lhs.dims.map SDim.val) lhs.off r =
          (refElem w lhs.x (lhs.dims.map SDim.val) lhs.off r).map fun x => l.foldl (fun x i => f x (g i)) x) ∧
      (∀ z c j, w.vars z = some c → InBox c.shape j → (z = lhs.x → Outside (lhs.dims.map SDim.val) lhs.off c j) →
        elem w' z j = elem w z j) := by
  classical
  have hI := hw.inv hdef
  obtain ⟨a, hav, hpl⟩ := (h.refs lhs (by simp)).part
  have hval : ∀ i, ∃ v, TermIndex lhs rhs i → termAt w i rhs = .ok v := by
    intro i
    by_cases hi : TermIndex lhs rhs i
    · obtain ⟨v, hv⟩ := termAt_ok hI (e := rhs) (i := i) (fun r hr => h.refs r (by simp [hr]))
        fun r hr => hi.inBox (by simp [hr])
      exact ⟨v, fun _ => hv⟩
    · exact ⟨ty.defaultValue, fun h => absurd h hi⟩
  choose g hg using hval
  have hmem := fun i => (mem_boxList (i := i)).trans (loopIndex_iff h.typed h.consistent ha i)
  have htr : ∀ i ∈ boxList (einLoopShape lhs.op rhs.expr), TermIndex lhs rhs i ∧ termAt w i rhs = .ok (g i) :=
    fun i hi => ⟨(hmem i).1 hi, hg i ((hmem i).1 hi)⟩
  obtain ⟨w', e, hk, hr', hc⟩ := einLoop_array hdef f h hav hw hpl _ htr w (SameSkel.refl w) hw fun _ _ => rfl
  have hI' := hr'.inv hdef
  refine ⟨w', g, ?_, hr', hk.vars, hk.nextVar, hg, ?_, ?_⟩
  · unfold einReduceArray
    rw [show assert ty (einAssert lhs.op rhs.expr) w = .ok w by simp [assert, check, ha], bind_ok,
      forEachIndex_eq (einLoopShape_nonNeg h.typed h.nonNeg)]
    exact e
  · intro r hrb
    have hrr := hpl.sub r hrb
    refine ⟨(boxList (einLoopShape lhs.op rhs.expr)).filter fun i => pick lhs.is i = r,
      (boxList_pairwise _).filter _, ?_, ?_⟩
    · intro i
      rw [List.mem_filter, hmem, decide_eq_true_eq]
      exact Iff.rfl
    · apply refElem_eq hI hI' hav (by rw [hk.vars]; exact hav) hrr hrr
      rw [hc, update_fold (fun i => a.cell (lhs.dims.map SDim.val) lhs.off (pick lhs.is i)) fun i x => f x (g i)]
      congr 1
      funext x
      congr 1
      refine List.filter_congr fun i hi => ?_
      rw [decide_eq_decide]
      have hib := (htr i hi).1.inBox (r := lhs) (by simp)
      constructor
      · intro e
        have := ((cell_block hI hav hav hrr.1 hrr.1).1 e).2
        exact h.injective _ _ hib hrb (by omega)
      · intro e; rw [e]
  · intro z c j hz hj hout
    apply elem_frame hI hk hz hj
    intro hb
    rw [hc]
    apply update_frame (fun i => a.cell (lhs.dims.map SDim.val) lhs.off (pick lhs.is i)) fun i x => f x (g i)
    intro i hi
    have hib := (htr i hi).1.inBox (r := lhs) (by simp)
    exact cell_outside hI hz hav hb (hpl.sub _ hib) hib hout

/-- C72, `+=`: each element of the result grows by the sum of the values of the right-hand side over all loop indices that address
it. -/
theorem C72_sum [AddCommMonoid V] (ty : Types V) (hdef : TypesOk ty) (w : World V) (hw : Reachable ty w) (lhs : EinRef)
    (rhs : EinTerm V) (h : EinArrays w lhs rhs) (ha : einAssert lhs.op rhs.expr = true) :
    ∃ (w' : World V) (g : Index → V), einReduceArray ty (· + ·) lhs rhs w = .ok w' ∧ Reachable ty w' ∧ w'.vars = w.vars ∧ w'.nextVar = w.nextVar ∧
      (∀ i, TermIndex lhs rhs i → termAt w i rhs = .ok (g i)) ∧
      (∀ r, InBox (lhs.dims.map SDim.val) r → ∀ l : List Index, l.Nodup →
        (∀ i, i ∈ l ↔ TermIndex lhs rhs i ∧ pick lhs.is i = r) →
        refElem w' lhs.x (lhs.dims.map SDim.val) lhs.off r =
          (refElem w lhs.x (lhs.dims.map SDim.val) lhs.off r).map fun x => x + (l.map g).sum) ∧
      (∀ z c j, w.vars z = some c → InBox c.shape j → (z = lhs.x → Outside (lhs.dims.map SDim.val) lhs.off c j) →
        elem w' z j = elem w z j) := by
  obtain ⟨w', g, e, hr, hv, hnv, hg, h1, h2⟩ := C72_reduce ty hdef (· + ·) w hw lhs rhs h ha
  refine ⟨w', g, e, hr, hv, hnv, hg, ?_, h2⟩
  intro r hrb l hnd hl
  obtain ⟨l', hp, hl', e'⟩ := h1 r hrb
  have hperm := pairwise_perm hp hnd fun i => by rw [hl, hl']
  rw [e']
  congr 1
  funext x
  rw [foldl_add_eq, (hperm.map _).sum_eq]

/-- Views of other arrays are unchanged. -/
theorem step_refElem {ty : Types V} {T : Nat → Prop} {w w' : World V} (hI : Inv ty w) (h : Step T w w') {y : Nat} (hy : ¬ T y)
    (s : Shape) (off : Int) (i : Index) : refElem w' y s off i = refElem w y s off i := by
  unfold refElem World.get
  rw [h.vars y hy]
  cases ha : w.vars y with
  | none => rfl
  | some a =>
    simp only [bind_ok]
    rcases (hI.good y a ha).own with ⟨ho, _⟩ | ⟨b, blk, hh, _⟩
    · rw [ho.base]
    · rw [hh.base]
      dsimp only
      unfold readAt World.block
      rw [h.heap y a b hy ha hh.buffer]

theorem withValues_self (l : List SDim) : withValues l (values l) = l := by
  unfold withValues values
  induction l with
  | nil => rfl
  | cons d l ih => rw [List.map_cons, List.zipWith_cons_cons, ih]

theorem prodStrides_idem (c : Int) (l : List Dim) : prodStrides c (prodStrides c l) = prodStrides c l := by
  induction l generalizing c with
  | nil => rfl
  | cons d l ih =>
    simp only [prodStrides, ih]

/-- The strides of the shape `make_ein_reduce_shape` gives, and `resolve` leaves it alone. -/
theorem einShape_strides {ris : List Nat} {e : EinExpr V} (ht : ∀ o ∈ leaves e, OpTyped o)
    (hu : ∀ k ∈ ris, ∃ o ∈ leaves e, OpUses o k) (hpos : Pos (values (makeEinReduceShape ris e)))
    (hfit : ((values (makeEinReduceShape ris e)).map Dim.extent).prod ≤ 9223372036854775807) :
    prodStrides 1 (values (makeEinReduceShape ris e)) = values (makeEinReduceShape ris e) ∧
    (values (makeEinReduceShape ris e)).resolve = values (makeEinReduceShape ris e) := by
  have hF : ∀ d ∈ ris.map (fun k => reconcileDim (e.gatherDims k .inferred)), Fits d.ty d.val ∧ d.ty.stride = -9 := by
    intro d hd
    obtain ⟨k, hk, rfl⟩ := List.mem_map.1 hd
    obtain ⟨_, _, _, _, h, h'⟩ := reconcile_inferred ht (hu k hk)
    exact ⟨h, h'⟩
  have hex : (values (makeEinReduceShape ris e)).map Dim.extent =
      (values (ris.map fun k => reconcileDim (e.gatherDims k .inferred))).map Dim.extent := by
    have h := C29_keeps (ris.map fun k => reconcileDim (e.gatherDims k .inferred)) fun d hd => (hF d hd).1
    unfold makeEinReduceShape values
    rw [List.map_map, List.map_map]
    generalize ris.map (fun k => reconcileDim (e.gatherDims k .inferred)) = l at h
    generalize makeCompact l = l' at h
    induction h with
    | nil => rfl
    | cons h1 _ ih => rw [List.map_cons, List.map_cons, ih, Function.comp, h1.2.1]; rfl
  have hpos' : Pos (values (ris.map fun k => reconcileDim (e.gatherDims k .inferred))) := by
    intro d hd
    have : d.extent ∈ (values (makeEinReduceShape ris e)).map Dim.extent := by
      rw [hex]; exact List.mem_map.2 ⟨d, hd, rfl⟩
    obtain ⟨d', hd', e'⟩ := List.mem_map.1 this
    rw [← e']; exact hpos d' hd'
  have hfit' := le_of_eq_of_le (congrArg List.prod hex.symm) hfit
  have hp : values (makeEinReduceShape ris e) = prodStrides 1 (values (ris.map fun k => reconcileDim (e.gatherDims k .inferred))) := by
    unfold makeEinReduceShape
    exact makeCompact_dynamic (fun d hd => (hF d hd).1) (fun d hd => (hF d hd).2) hpos' hfit'
  refine ⟨?_, ?_⟩
  · rw [hp, prodStrides_idem]
  · rw [hp, ← resolve_bounds hpos' hfit']
    exact resolve_of_known (resolve_known _)

theorem einShape_resolved {ris : List Nat} {e : EinExpr V} (ht : ∀ o ∈ leaves e, OpTyped o)
    (hu : ∀ k ∈ ris, ∃ o ∈ leaves e, OpUses o k) (hpos : Pos (values (makeEinReduceShape ris e)))
    (hfit : ((values (makeEinReduceShape ris e)).map Dim.extent).prod ≤ 9223372036854775807) :
    (values (makeEinReduceShape ris e)).resolve = values (makeEinReduceShape ris e) :=
  (einShape_strides ht hu hpos hfit).2

/-- Loop indices do not depend on the result of `make_ein_sum`. -/
theorem loopIndex_result {ris : List Nat} {b : Option Int} {dims : List SDim} {e : EinExpr V}
    (hu : ∀ k ∈ ris, ∃ o ∈ leaves e, OpUses o k) {r : Index} (hr : InBox (dims.map SDim.val) r) (i : Index) :
    (LoopIndex (⟨.arr b dims, ris⟩ :: leaves e) i ∧ pick ris i = r) ↔ (LoopIndex (leaves e) i ∧ pick ris i = r) := by
  have hrank : loopRank ((⟨.arr b dims, ris⟩ : EinOp V) :: leaves e) = loopRank (leaves e) := by
    rw [loopRank_cons]
    refine Nat.max_eq_right ?_
    refine listRank_le fun k hk => ?_
    obtain ⟨o, ho, h⟩ := hu k hk
    exact lt_loopRank ho (opUses_mem h)
  refine and_congr_left fun hp => ?_
  unfold LoopIndex
  rw [hrank]
  refine and_congr_right fun _ => and_congr ?_ ?_
  · simp only [List.mem_cons, forall_eq_or_imp]
    refine ⟨fun h => h.2, fun h => ⟨?_, h⟩⟩
    show InBox (dims.map SDim.val) (pick ris i)
    rw [hp]; exact hr
  · refine forall_congr' fun k => forall_congr' fun hk => imp_congr_left ?_
    simp only [List.mem_cons, forall_eq_or_imp]
    refine ⟨fun h => h.2, fun h => ⟨?_, h⟩⟩
    intro hk'
    obtain ⟨o, ho, h'⟩ := hu k hk'
    exact h o ho h'

/-- C72: `make_ein_sum<T, ResultIs...>(e, init, alloc)` in a program with arrays creates a new array, whose bounds are those of the
operand dims addressed by the result indices, and whose elements are `init` plus the Einstein sum.  All other arrays are unchanged.
The result must have elements, and their number be representable. -/
theorem C72_make_sum [AddCommMonoid V] (ty : Types V) (hdef : TypesOk ty) (w : World V) (hw : Reachable ty w) (ris : List Nat)
    (e : EinTerm V) (init : V) (al : Nat) (href : ∀ r ∈ termRefs e, RefOk w r)
    (hu : ∀ k ∈ ris, ∃ r ∈ termRefs e, k ∈ r.is) (hrank : ris.length = List.length ty.defaultShape)
    (ha : einAssert (EinRef.op ⟨w.nextVar, makeEinReduceShape ris e.expr, 0, ris⟩) e.expr = true)
    (ha' : makeEinReduceShapeAssert ris e.expr = true)
    (hpos : Pos ((makeEinReduceShape ris e.expr).map SDim.val))
    (hfit : (((makeEinReduceShape ris e.expr).map SDim.val).map Dim.extent).prod ≤ 9223372036854775807) :
    ∃ (w' : World V) (g : Index → V) (a' : Arr), makeEinSumArray ty (· + ·) ris e init al w = .ok w' ∧ Reachable ty w' ∧ w'.vars w.nextVar = some a' ∧
      w'.nextVar = w.nextVar + 1 ∧ a'.shape = (makeEinReduceShape ris e.expr).map SDim.val ∧ a'.alloc.arena = al ∧
      List.Forall₂ (fun k d => ∃ d0, firstUse k (leaves e.expr) = some d0 ∧ d.val.min = d0.min ∧ d.val.extent = d0.extent ∧
        Fits d.ty d.val) ris (makeEinReduceShape ris e.expr) ∧
      Injective a'.shape ∧ a'.shape.isCompact = true ∧
      (∀ i, LoopIndex (leaves e.expr) i → InBox a'.shape (pick ris i) → termAt w i e = .ok (g i)) ∧
      (∀ r, InBox a'.shape r → ∀ l : List Index, l.Nodup → (∀ i, i ∈ l ↔ LoopIndex (leaves e.expr) i ∧ pick ris i = r) →
        elem w' w.nextVar r = .ok (init + (l.map g).sum)) ∧
      ∀ z, z ≠ w.nextVar → w'.vars z = w.vars z ∧ ∀ c j, w.vars z = some c → InBox c.shape j → elem w' z j = elem w z j := by
  have hI := hw.inv hdef
  have ht : ∀ o ∈ leaves e.expr, OpTyped o := by
    intro o ho
    rcases mem_leaves_expr ho with ⟨r, hr, rfl⟩ | ⟨f, is, rfl⟩
    · exact (href r hr).opTyped
    · trivial
  have hu' : ∀ k ∈ ris, ∃ o ∈ leaves e.expr, OpUses o k := by
    intro k hk
    obtain ⟨r, hr, hkr⟩ := hu k hk
    exact ⟨r.op, refs_mem_leaves hr, hkr⟩
  have hsh := C43_shape ris e.expr ht hu'
  obtain ⟨-, hinj, hcompact, -⟩ := C43_compact ris e.expr ht hu' hpos hfit
  have hres := einShape_resolved ht hu' hpos hfit
  generalize hdims : makeEinReduceShape ris e.expr = dims at *
  have hs : ShapeOk ty (values dims) := by
    refine ⟨?_, hpos.nonNeg, Or.inl hpos⟩
    rw [← hrank]
    exact (List.length_map ..).trans hsh.length_eq.symm
  obtain ⟨w1, a1, e1, hI1, hst1, hnv1, hv1, hs1, hal1, hh1, hval1⟩ := newFillAlloc_ok hI hdef hs init al
  have hw1 : Reachable ty w1 := hw.exec (c := .newFillAlloc (values dims) init al) hs e1
  rw [hres] at hs1
  have hz : ∀ z, z ≠ w.nextVar → w1.vars z = w.vars z := fun z hz => hst1.vars z hz
  have hne : ∀ r ∈ termRefs e, r.x ≠ w.nextVar := by
    intro r hr h
    obtain ⟨a, ha, _⟩ := (href r hr).part
    have := hI.lt ha
    omega
  have href1 : ∀ r ∈ termRefs e, RefOk w1 r := by
    intro r hr
    obtain ⟨a, ha, hp⟩ := (href r hr).part
    exact ⟨⟨a, by rw [hz _ (hne r hr)]; exact ha, hp⟩, (href r hr).typed, (href r hr).consistent⟩
  have hbase : a1.base ≠ none := fun hb => hh1 hb (by rw [hs1]; exact hpos)
  have hlhs : RefOk w1 ⟨w.nextVar, dims, 0, ris⟩ := by
    refine ⟨⟨a1, hv1, hpos.nonNeg, fun i hi => ⟨hbase, i, by rw [hs1]; exact hi, ?_⟩⟩, ⟨hsh.length_eq, fun d hd => ?_⟩, ?_⟩
    · rw [hs1]; simp [values]
    · obtain ⟨i, hi, rfl⟩ := List.mem_iff_getElem.1 hd
      have := (List.forall₂_iff_get.1 hsh).2 i (by rw [hsh.length_eq]; exact hi) hi
      obtain ⟨_, _, _, _, h⟩ := this
      exact h
    · intro p q k d d' hp hq hd hd'
      obtain ⟨hp1, hp2⟩ := List.getElem?_eq_some_iff.1 hp
      obtain ⟨hq1, hq2⟩ := List.getElem?_eq_some_iff.1 hq
      obtain ⟨hx1, hx2⟩ := List.getElem?_eq_some_iff.1 hd
      obtain ⟨hy1, hy2⟩ := List.getElem?_eq_some_iff.1 hd'
      obtain ⟨u, u1, u2, u3, _⟩ := (List.forall₂_iff_get.1 hsh).2 p hp1 hx1
      obtain ⟨v, v1, v2, v3, _⟩ := (List.forall₂_iff_get.1 hsh).2 q hq1 hy1
      simp only [List.get_eq_getElem] at u1 u2 u3 v1 v2 v3
      rw [hp2] at u1
      rw [hq2, u1] at v1
      simp only [Option.some.injEq] at v1
      subst v1
      rw [hx2] at u2 u3
      rw [hy2] at v2 v3
      exact ⟨by rw [u2, v2], by rw [u3, v3]⟩
  have harr : EinArrays w1 ⟨w.nextVar, dims, 0, ris⟩ e := by
    refine ⟨?_, hinj, ?_⟩
    · intro r hr
      rcases List.mem_cons.1 hr with rfl | hr
      · exact hlhs
      · exact href1 r hr
    · intro r hr h
      exact absurd h.symm (hne r hr)
  obtain ⟨w2, g, e2, hr2, hv2, hnv2, hg, hsum, hframe⟩ := C72_sum ty hdef w1 hw1 _ e harr ha
  have hI2 := hr2.inv hdef
  have hvn : w2.vars w.nextVar = some a1 := by rw [hv2]; exact hv1
  refine ⟨w2, g, a1, ?_, hr2, hvn, ?_, hs1, hal1, hsh, ?_, ?_, ?_, ?_, ?_⟩
  · unfold makeEinSumArray
    rw [show assert ty (makeEinReduceShapeAssert ris e.expr) w = .ok w by simp [assert, check, ha'], bind_ok, hdims, e1, bind_ok,
      get_ok hv1, bind_ok, hs1, withValues_self]
    exact e2
  · rw [hnv2, hnv1]
  · rw [hs1]; exact hinj
  · rw [hs1]; exact hcompact
  · intro i hi hp
    rw [hs1] at hp
    have hti : TermIndex ⟨w.nextVar, dims, 0, ris⟩ e i := ((loopIndex_result hu' hp i).2 ⟨hi, rfl⟩).1
    rw [← hg i hti]
    refine termAt_congr fun r hr => ?_
    exact (step_refElem hI hst1 (hne r hr) _ _ _).symm
  · intro r hr l hnd hl
    rw [hs1] at hr
    have := hsum r hr l hnd fun i => (hl i).trans (loopIndex_result hu' hr i).symm
    have h1 := elem_refElem w.nextVar hvn r
    have h2 := elem_refElem w.nextVar hv1 r
    rw [hs1] at h1 h2
    rw [h1]
    refine this.trans ?_
    have h3 := hval1 r (by rw [hs1]; exact hr)
    rw [h2] at h3
    exact congrArg (Except.map _) h3
  · intro z hzn
    refine ⟨by rw [hv2]; exact hz z hzn, fun c j hc hj => ?_⟩
    rw [hframe z c j (by rw [hz z hzn]; exact hc) hj (fun h => absurd h hzn)]
    exact hst1.elem hI hzn j

end Nda
