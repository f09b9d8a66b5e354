import Verif.Props.Ein
import Verif.Props.Static
import Verif.Props.Algorithms
/-
C43: `make_ein_sum`.
-/
namespace Nda
open Spec
variable {α : Type}

theorem find_zip_indexOf {β : Type} (k : Nat) (is : List Nat) (l : List β) (h : is.length = l.length) :
    ((is.zip l).find? fun p => p.1 == k).map Prod.snd = l[indexOf k is]? := by
  induction is generalizing l with
  | nil =>
    cases l with
    | nil => rfl
    | cons x l => simp at h
  | cons t is ih =>
    cases l with
    | nil => simp at h
    | cons x l =>
      rw [List.zip_cons_cons]
      unfold indexOf
      by_cases hk : k = t
      · subst hk
        simp
      · rw [if_neg hk, List.find?_cons_of_neg (by simpa using Ne.symm hk), ih l (by simpa using h), Nat.add_comm,
          List.getElem?_cons_succ]

/-- What `gather_dims` finds in one operand when inferring a shape. -/
theorem gather_inferred {o : EinOp α} (ht : OpTyped o) (k : Nat) :
    ((o.gatherDims k .inferred).map fun x => (x.val.min, x.val.extent)) =
      (((o.is.zip (einDims o.op)).find? fun p => p.1 == k).map
        fun p => (p.2.min, p.2.extent)).toList ∧
    ∀ x ∈ o.gatherDims k .inferred, Fits x.ty x.val ∧ x.ty.stride = dynamic := by
  obtain ⟨op, is⟩ := o
  cases op with
  | fn f => simp [EinOp.gatherDims, EinSrc.dimsOf, einDims, getOrEmpty_eq]
  | arr base dims =>
    simp only [OpTyped] at ht
    have hz := find_zip_indexOf k is (dims.map SDim.val) (by simpa using ht.1)
    have hz' : ((is.zip (dims.map SDim.val)).find? fun p => p.1 == k).map
        (fun p => (p.2.min, p.2.extent)) =
        ((dims.map SDim.val)[indexOf k is]?).map fun d => (d.min, d.extent) := by
      rw [← hz, Option.map_map]; rfl
    simp only [EinOp.gatherDims, EinSrc.dimsOf, einDims, getOrEmpty_eq]
    rw [hz', List.getElem?_map]
    cases hd : dims[indexOf k is]? with
    | none => simp
    | some x =>
      have hf := ht.2 x (List.mem_of_getElem? hd)
      have := withStride_val dynamic hf
      simp only [Option.toList, Option.map_some, List.map_cons, List.map_nil, this.1, this.2, true_and,
        List.mem_cons, List.not_mem_nil, or_false]
      rintro y rfl
      refine ⟨⟨?_, ?_, ?_⟩, rfl⟩
      · rw [this.1]; exact hf.1
      · rw [this.2]; exact hf.2.1
      · intro hne; exact absurd rfl hne

/-- What `gather_dims` finds in all operands when inferring a shape. -/
theorem gather_inferred_all {ops : List (EinOp α)} (ht : ∀ o ∈ ops, OpTyped o) (k : Nat) :
    ((ops.flatMap (EinOp.gatherDims k .inferred)).head?.map fun x => (x.val.min, x.val.extent)) =
      (firstUse k ops).map fun d => (d.min, d.extent) := by
  induction ops with
  | nil => rfl
  | cons o ops ih =>
    have h := (gather_inferred (ht o (by simp)) k).1
    have ih := ih fun o ho => ht o (by simp [ho])
    rw [List.flatMap_cons]
    unfold firstUse at ih ⊢
    rw [List.findSome?_cons]
    cases hf : (o.is.zip (einDims o.op)).find? fun p => p.1 == k with
    | none =>
      rw [hf] at h
      have : o.gatherDims k .inferred = [] := by simpa using h
      rw [this]
      simpa using ih
    | some p =>
      rw [hf] at h
      cases hg : o.gatherDims k .inferred with
      | nil => rw [hg] at h; simp at h
      | cons x xs =>
        rw [hg] at h
        simp only [List.map_cons, Option.map_some, Option.toList, List.cons.injEq] at h
        simpa using h.1

theorem firstUse_some {ops : List (EinOp α)} (ht : ∀ o ∈ ops, OpTyped o) {k : Nat}
    (h : ∃ o ∈ ops, OpUses o k) : ∃ d, firstUse k ops = some d := by
  obtain ⟨o, ho, hu⟩ := h
  rw [← Option.isSome_iff_exists]
  unfold firstUse
  rw [List.findSome?_isSome_iff]
  refine ⟨o, ho, ?_⟩
  have ht := ht o ho
  obtain ⟨op, is⟩ := o
  cases op with
  | fn f => exact absurd hu (by simp [OpUses])
  | arr base dims =>
    simp only [OpTyped] at ht
    simp only [OpUses] at hu
    simp only [einDims]
    rw [find_zip_indexOf k is _ (by simpa using ht.1)]
    have := (indexOf_mem hu).1
    rw [List.getElem?_eq_getElem (by simpa using ht.1 ▸ this)]
    rfl

theorem firstUse_mem {ops : List (EinOp α)} {k : Nat} {d : Dim} (h : firstUse k ops = some d) :
    ∃ o ∈ ops, d ∈ einDims o.op := by
  unfold firstUse at h
  rw [List.findSome?_eq_some_iff] at h
  obtain ⟨l1, o, l2, e, h, _⟩ := h
  refine ⟨o, by simp [e], ?_⟩
  rw [Option.map_eq_some_iff] at h
  obtain ⟨p, hp, rfl⟩ := h
  exact (List.of_mem_zip (List.mem_of_find?_eq_some hp)).2

/-- The dims `make_ein_reduce_shape` passes to `make_compact`. -/
theorem reconcile_inferred {e : EinExpr α} (ht : ∀ o ∈ leaves e, OpTyped o) {k : Nat}
    (hu : ∃ o ∈ leaves e, OpUses o k) :
    ∃ d, firstUse k (leaves e) = some d ∧
      (reconcileDim (e.gatherDims k .inferred)).val.min = d.min ∧
      (reconcileDim (e.gatherDims k .inferred)).val.extent = d.extent ∧
      Fits (reconcileDim (e.gatherDims k .inferred)).ty (reconcileDim (e.gatherDims k .inferred)).val ∧
      (reconcileDim (e.gatherDims k .inferred)).ty.stride = -9 := by
  obtain ⟨d, hd⟩ := firstUse_some ht hu
  have h := gather_inferred_all ht k
  have hall : ∀ x ∈ (leaves e).flatMap (EinOp.gatherDims k .inferred), Fits x.ty x.val ∧ x.ty.stride = dynamic := by
    intro x hx
    obtain ⟨o, ho, hx⟩ := List.mem_flatMap.1 hx
    exact (gather_inferred (ht o ho) k).2 x hx
  rw [hd] at h
  rw [gatherDims_eq]
  refine ⟨d, hd, ?_⟩
  cases hl : (leaves e).flatMap (EinOp.gatherDims k .inferred) with
  | nil => rw [hl] at h; simp at h
  | cons x xs =>
    rw [hl] at h hall
    simp only [List.head?_cons, Option.map_some, Option.some.injEq, Prod.mk.injEq] at h
    exact ⟨h.1, h.2, hall x (by simp)⟩

/-- C43: the k-th dim of the result has the min and extent of the first operand dim addressed by the
k-th result index. -/
theorem C43_shape (ris : List Nat) (e : EinExpr α) (ht : ∀ o ∈ leaves e, OpTyped o)
    (hu : ∀ k ∈ ris, ∃ o ∈ leaves e, OpUses o k) :
    List.Forall₂ (fun k d => ∃ d0, firstUse k (leaves e) = some d0 ∧ d.val.min = d0.min ∧
      d.val.extent = d0.extent ∧ Fits d.ty d.val) ris (makeEinReduceShape ris e) := by
  have h := C29_keeps (ris.map fun k => reconcileDim (e.gatherDims k .inferred)) (by
    intro d hd
    obtain ⟨k, hk, rfl⟩ := List.mem_map.1 hd
    obtain ⟨_, _, _, _, h, _⟩ := reconcile_inferred ht (hu k hk)
    exact h)
  rw [List.forall₂_map_left_iff] at h
  unfold makeEinReduceShape
  refine List.Forall₂.imp (fun k d hh => ?_) (List.forall₂_iff_get.2 ⟨h.length_eq, fun i h1 h2 => ?_⟩ :
    List.Forall₂ (fun k d => k ∈ ris ∧ d.val.min = (reconcileDim (e.gatherDims k .inferred)).val.min ∧
      d.val.extent = (reconcileDim (e.gatherDims k .inferred)).val.extent ∧ Fits d.ty d.val) ris _)
  · obtain ⟨d0, h0, h1, h2, _⟩ := reconcile_inferred ht (hu k hh.1)
    exact ⟨d0, h0, by rw [hh.2.1, h1], by rw [hh.2.2.1, h2], hh.2.2.2⟩
  · have := (List.forall₂_iff_get.1 h).2 i h1 h2
    exact ⟨by simp, this.1, this.2.1, this.2.2.2⟩

/-- C43: the result is compact and its elements are distinct, if it has elements and their number is
representable. -/
theorem C43_compact (ris : List Nat) (e : EinExpr α) (ht : ∀ o ∈ leaves e, OpTyped o)
    (hu : ∀ k ∈ ris, ∃ o ∈ leaves e, OpUses o k)
    (hpos : Pos ((makeEinReduceShape ris e).map SDim.val))
    (hfit : (((makeEinReduceShape ris e).map SDim.val).map Dim.extent).prod ≤ 9223372036854775807) :
    let r := values (makeEinReduceShape ris e)
    (∀ o, (∃ i, InBox r i ∧ offsetOf r i = o) ↔ 0 ≤ o ∧ o < r.size) ∧
    Injective r ∧ r.isCompact = true ∧ r.isOneToOne = true := by
  have hex : ((makeEinReduceShape ris e).map SDim.val).map Dim.extent =
      (values (ris.map fun k => reconcileDim (e.gatherDims k .inferred))).map Dim.extent := by
    have h := C29_keeps (ris.map fun k => reconcileDim (e.gatherDims k .inferred)) (by
      intro d hd
      obtain ⟨k, hk, rfl⟩ := List.mem_map.1 hd
      obtain ⟨_, _, _, _, h, _⟩ := reconcile_inferred ht (hu k hk)
      exact h)
    unfold makeEinReduceShape values
    rw [List.map_map, List.map_map]
    generalize ris.map (fun k => reconcileDim (e.gatherDims k .inferred)) = l at h
    generalize makeCompact l = l' at h
    induction h with
    | nil => rfl
    | cons h1 _ ih => rw [List.map_cons, List.map_cons, ih, Function.comp, h1.2.1]; rfl
  refine C29_compact _ ?_ ?_ ?_ ?_
  · intro d hd
    obtain ⟨k, hk, rfl⟩ := List.mem_map.1 hd
    obtain ⟨_, _, _, _, h, _⟩ := reconcile_inferred ht (hu k hk)
    exact h
  · intro d hd
    obtain ⟨k, hk, rfl⟩ := List.mem_map.1 hd
    obtain ⟨_, _, _, _, _, h⟩ := reconcile_inferred ht (hu k hk)
    exact h
  · intro d hd
    have : d.extent ∈ ((makeEinReduceShape ris e).map SDim.val).map Dim.extent := by
      rw [hex]; exact List.mem_map.2 ⟨d, hd, rfl⟩
    obtain ⟨d', hd', e'⟩ := List.mem_map.1 this
    rw [← e']; exact hpos d' hd'
  · rw [← hex]; exact hfit

/-- C43: the elements of the result are `init` plus the Einstein sum, and no other memory changes.
`hbuf`: the new buffer overlaps no operand. -/
theorem C43_value [AddCommMonoid α] (ris : List Nat) (e : EinExpr α) (init : α) (buf : Int) (m : Mem α)
    (ht : ∀ o ∈ leaves e, OpTyped o) (hu : ∀ k ∈ ris, ∃ o ∈ leaves e, OpUses o k)
    (hn : ∀ o ∈ leaves e, NonNeg (einDims o.op)) (hc : ∀ o ∈ leaves e, OpConsistent o)
    (hb : ∀ o ∈ leaves e, OpBacked o)
    (hfit : (((makeEinReduceShape ris e).map SDim.val).map Dim.extent).prod ≤ 9223372036854775807)
    (hbuf : ∀ o ∈ leaves e, ∀ a, buf ≤ a → a < buf + (values (makeEinReduceShape ris e)).size →
      ¬ OpElement o a)
    (ha : einAssert ⟨.arr (some (buf - (values (makeEinReduceShape ris e)).flatMin))
      (makeEinReduceShape ris e), ris⟩ e = true) :
    ∃ dims base m', makeEinSum (· + ·) ris e init buf m = some (dims, base, m') ∧
      List.Forall₂ (fun k d => ∃ d0, firstUse k (leaves e) = some d0 ∧ d.val.min = d0.min ∧
        d.val.extent = d0.extent ∧ Fits d.ty d.val) ris dims ∧
      (∀ r, InBox (dims.map SDim.val) r →
        buf ≤ base + offsetOf (dims.map SDim.val) r ∧
        base + offsetOf (dims.map SDim.val) r < buf + (values dims).size ∧
        ∀ l : List Index, l.Nodup →
        (∀ i, i ∈ l ↔ LoopIndex (leaves e) i ∧ pick ris i = r) →
        m' (base + offsetOf (dims.map SDim.val) r) = init + (l.map fun i => valueAt m i e).sum) ∧
      ∀ a, ¬ (buf ≤ a ∧ a < buf + (values dims).size) → m' a = m a := by
  have hsh := C43_shape ris e ht hu
  have hcp := C43_compact ris e ht hu
  unfold makeEinSum
  simp only
  generalize makeEinReduceShape ris e = dims at *
  generalize hbase : buf - (values dims).flatMin = base at *
  have hlhsT : OpTyped (⟨.arr (some base) dims, ris⟩ : EinOp α) := by
    refine ⟨hsh.length_eq, fun d hd => ?_⟩
    obtain ⟨i, hi, rfl⟩ := List.mem_iff_getElem.1 hd
    have := (List.forall₂_iff_get.1 hsh).2 i (by rw [hsh.length_eq]; exact hi) hi
    obtain ⟨_, _, _, _, h⟩ := this
    exact h
  have hnn : NonNeg (dims.map SDim.val) := by
    intro d hd
    obtain ⟨x, hx, rfl⟩ := List.mem_map.1 hd
    obtain ⟨i, hi, rfl⟩ := List.mem_iff_getElem.1 hx
    have := (List.forall₂_iff_get.1 hsh).2 i (by rw [hsh.length_eq]; exact hi) hi
    obtain ⟨d0, h0, _, h, _⟩ := this
    obtain ⟨o, ho, hd0⟩ := firstUse_mem h0
    have := hn o ho d0 hd0
    simp only [List.get_eq_getElem] at h
    omega
  have hpos_of : ∀ r, InBox (dims.map SDim.val) r → Pos (dims.map SDim.val) := fun r hr =>
    exists_inBox_iff.1 ⟨r, hr⟩
  have hrange : ∀ r, InBox (dims.map SDim.val) r →
      buf ≤ base + offsetOf (dims.map SDim.val) r ∧
      base + offsetOf (dims.map SDim.val) r < buf + (values dims).size := by
    intro r hr
    have hp := hpos_of r hr
    have hc := hcp hp hfit
    obtain ⟨lo, hlo, elo⟩ := exists_flatMin hp
    have h1 := (hc.1 (offsetOf (values dims) r)).1 ⟨r, hr, rfl⟩
    have h2 := (hc.1 _).1 ⟨lo, hlo, rfl⟩
    have h3 := (offsetOf_bounds hr).1
    have h4 : Shape.flatMin (values dims) ≤ 0 := by
      have : 0 < (values dims).size := by omega
      obtain ⟨z, hz, ez⟩ := (hc.1 0).2 ⟨le_refl _, by exact_mod_cast this⟩
      have := (offsetOf_bounds hz).1
      rw [ez] at this
      exact this
    have h5 : offsetOf (values dims) lo = Shape.flatMin (values dims) := elo
    have h6 : offsetOf (dims.map SDim.val) r = offsetOf (values dims) r := rfl
    rw [h6]
    omega
  have hinj : Injective (dims.map SDim.val) := by
    intro i j hi hj
    exact (hcp (hpos_of i hi) hfit).2.1 i j hi hj
  have hin : EinInput (⟨.arr (some base) dims, ris⟩ : EinOp α) e := by
    refine ⟨?_, ?_, ?_, ?_, hinj, ?_⟩
    · intro o ho
      rcases List.mem_cons.1 ho with rfl | ho
      · exact hlhsT
      · exact ht o ho
    · intro o ho
      rcases List.mem_cons.1 ho with rfl | ho
      · exact hnn
      · exact hn o ho
    · intro o ho
      rcases List.mem_cons.1 ho with rfl | ho
      · intro p q k d d' hp hq hd hd'
        simp only [einDims, List.getElem?_map, Option.map_eq_some_iff] at hp hq hd hd'
        obtain ⟨x, hx, rfl⟩ := hd
        obtain ⟨y, hy, rfl⟩ := hd'
        obtain ⟨hp1, hp2⟩ := List.getElem?_eq_some_iff.1 hp
        obtain ⟨hq1, hq2⟩ := List.getElem?_eq_some_iff.1 hq
        obtain ⟨hx1, hx2⟩ := List.getElem?_eq_some_iff.1 hx
        obtain ⟨hy1, hy2⟩ := List.getElem?_eq_some_iff.1 hy
        obtain ⟨u, u1, u2, u3, _⟩ := (List.forall₂_iff_get.1 hsh).2 p hp1 hx1
        obtain ⟨v, v1, v2, v3, _⟩ := (List.forall₂_iff_get.1 hsh).2 q hq1 hy1
        simp only [List.get_eq_getElem] at u1 u2 u3 v1 v2 v3
        rw [hp2] at u1
        rw [hq2, u1] at v1
        simp only [Option.some.injEq] at v1
        subst v1
        rw [hx2] at u2 u3
        rw [hy2] at v2 v3
        exact ⟨by rw [u2, v2], by rw [u3, v3]⟩
      · exact hc o ho
    · intro o ho
      rcases List.mem_cons.1 ho with rfl | ho
      · intro h; simp at h
      · exact hb o ho
    · rintro o ho a ⟨b, i, h1, hi, rfl⟩
      simp only [Option.some.injEq] at h1
      subst h1
      exact hbuf o ho _ (hrange i hi).1 (hrange i hi).2
  obtain ⟨f1, f2⟩ := C19_fill ⟨some base, values dims⟩ base rfl hnn init m
  obtain ⟨m', hm', hs, hframe⟩ := C41_sum _ e (fill ⟨some base, values dims⟩ init m) hin ha base dims rfl
  refine ⟨dims, base, m', ?_, hsh, ?_, ?_⟩
  · rw [hm']; rfl
  · intro r hr
    refine ⟨(hrange r hr).1, (hrange r hr).2, fun l hnd hl => ?_⟩
    have hloop : ∀ i, (LoopIndex (⟨.arr (some base) dims, ris⟩ :: leaves e) i ∧ pick ris i = r) ↔
        (LoopIndex (leaves e) i ∧ pick ris i = r) := by
      intro i
      have hrank : loopRank ((⟨.arr (some base) dims, ris⟩ : EinOp α) :: leaves e) = loopRank (leaves e) := by
        rw [loopRank_cons]
        refine Nat.max_eq_right ?_
        refine listRank_le fun k hk => ?_
        obtain ⟨o, ho, h⟩ := hu k hk
        exact lt_loopRank ho (opUses_mem h)
      refine and_congr_left fun hp => ?_
      unfold LoopIndex
      rw [hrank]
      refine and_congr_right fun _ => and_congr ?_ ?_
      · simp only [List.mem_cons, forall_eq_or_imp]
        refine ⟨fun h => h.2, fun h => ⟨?_, h⟩⟩
        show InBox (dims.map SDim.val) (pick ris i)
        rw [hp]; exact hr
      · refine forall_congr' fun k => forall_congr' fun hk => imp_congr_left ?_
        simp only [List.mem_cons, forall_eq_or_imp]
        refine ⟨fun h => h.2, fun h => ⟨?_, h⟩⟩
        intro hk'
        obtain ⟨o, ho, h'⟩ := hu k hk'
        exact h o ho h'
    have hl := fun i => (hl i).trans (hloop i).symm
    rw [hs r hr l hnd hl]
    congr 1
    · exact f1 r hr
    · congr 1
      refine List.map_congr_left fun i hi => ?_
      have hloop := ((hl i).1 hi).1
      refine valueAt_congr (fun o ho => hloop.2.1 o (by simp [ho])) hb ?_
      intro o ho a hoa
      refine (f2 a ?_)
      rintro i hi rfl
      exact hin.separate o ho _ ⟨base, i, rfl, hi, rfl⟩ hoa
  · intro a hna
    rw [hframe a]
    · apply f2
      rintro i hi rfl
      exact hna (hrange i hi)
    · rintro ⟨b, i, h1, hi, rfl⟩
      simp only [Option.some.injEq] at h1
      subst h1
      exact hna (hrange i hi)

end Nda
