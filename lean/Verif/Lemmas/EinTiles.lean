import Verif.Lemmas.EinAlgebra
import Verif.Spec.EinTiles
import Verif.Props.ViewAlgebra
/-
Lemmas for C66: reductions over crops of the operands.
-/
namespace Nda
open Spec
variable {α : Type}

section
variable {k : Nat} {v : Interval}

theorem tileDims_val {is : List Nat} {dims : List SDim} (h : is.length = dims.length) :
    (tileDims k v is dims).map SDim.val = Shape.crop (dims.map SDim.val) (tileArgs k v is) := by
  rw [crop_map _ _ (by simp [tileArgs, h])]
  · unfold tileDims tileArgs
    induction is generalizing dims with
    | nil => simp
    | cons j is ih =>
      cases dims with
      | nil => simp at h
      | cons d dims =>
        simp only [List.zipWith_cons_cons, List.map_cons]
        rw [ih (by simpa using h)]
        congr 1
        by_cases hj : j = k
        · rw [if_pos hj, if_pos hj]; rfl
        · rw [if_neg hj, if_neg hj]; rfl
  · intro i hi
    obtain ⟨j, _, e⟩ := List.mem_map.1 hi
    by_cases hj : j = k
    · rw [if_pos hj] at e; cases e
    · rw [if_neg hj] at e; cases e

theorem tileDims_get {is : List Nat} {dims : List SDim} {p : Nat} {d : Dim}
    (h : ((tileDims k v is dims).map SDim.val)[p]? = some d) :
    ∃ j e, is[p]? = some j ∧ (dims.map SDim.val)[p]? = some e ∧
      d = if j = k then ⟨v.min, v.extent, e.stride⟩ else e := by
  rw [List.getElem?_map, Option.map_eq_some_iff] at h
  obtain ⟨x, hx, rfl⟩ := h
  unfold tileDims at hx
  rw [List.getElem?_zipWith] at hx
  cases h1 : is[p]? with
  | none => rw [h1] at hx; simp at hx
  | some j =>
    cases h2 : dims[p]? with
    | none => rw [h1, h2] at hx; simp at hx
    | some y =>
      rw [h1, h2] at hx
      simp only [Option.some.injEq] at hx
      refine ⟨j, y.val, rfl, by rw [List.getElem?_map, h2]; rfl, ?_⟩
      rw [← hx]
      by_cases hj : j = k
      · rw [if_pos hj, if_pos hj]
      · rw [if_neg hj, if_neg hj]

theorem tile_offset (is : List Nat) (s : List Dim) (h : is.length = s.length) (j : Index) (hj : j.length = s.length) :
    offsetOf s (Shape.minsOfIntervals (tileArgs k v is) s) + offsetOf (Shape.crop s (tileArgs k v is)) j =
      offsetOf s j := by
  induction s generalizing is j with
  | nil =>
    obtain rfl : is = [] := List.length_eq_zero_iff.1 h
    obtain rfl : j = [] := List.length_eq_zero_iff.1 hj
    rfl
  | cons d s ih =>
    obtain ⟨t, is, rfl⟩ := List.exists_cons_of_length_eq_add_one h
    obtain ⟨x, j, rfl⟩ := List.exists_cons_of_length_eq_add_one hj
    have := ih is (by simpa using h) j (by simpa using hj)
    simp only [tileArgs, List.map_cons] at this ⊢
    rw [crop_kept (by intro i e; by_cases hj : t = k <;> simp [hj] at e)]
    simp only [Shape.minsOfIntervals, List.zipWith_cons_cons, offsetOf] at this ⊢
    by_cases ht : t = k
    · simp only [if_pos ht, Arg.minOfRange, Arg.rangeWithStride]
      linarith [this]
    · simp only [if_neg ht, Arg.minOfRange, Arg.rangeWithStride]
      linarith [this]

theorem tile_inBox {is : List Nat} {dims : List SDim} (h : is.length = dims.length)
    (hr : ∀ (p : Nat) (d : Dim), is[p]? = some k → (dims.map SDim.val)[p]? = some d →
      d.min ≤ v.min ∧ v.min + v.extent ≤ d.min + d.extent) (j : Index) :
    InBox ((tileDims k v is dims).map SDim.val) j ↔
      InBox (dims.map SDim.val) j ∧ ∀ (p : Nat) (x : Int), is[p]? = some k → j[p]? = some x → InIvl v x := by
  have hl : ((tileDims k v is dims).map SDim.val).length = (dims.map SDim.val).length := by
    simp [tileDims, h]
  rw [inBox_iff_get, inBox_iff_get, hl]
  constructor
  · rintro ⟨h1, h2⟩
    have key : ∀ (p t : Nat) (e : Dim) (x : Int), is[p]? = some t → (dims.map SDim.val)[p]? = some e → j[p]? = some x →
        if t = k then v.min ≤ x ∧ x < v.min + v.extent else e.min ≤ x ∧ x < e.min + e.extent := by
      intro p t e x ht he hx
      have hp : p < ((tileDims k v is dims).map SDim.val).length := by
        rw [hl]; exact (List.getElem?_eq_some_iff.1 he).1
      obtain ⟨t', e', ht', he', hd⟩ := tileDims_get (List.getElem?_eq_getElem hp)
      rw [ht, Option.some.injEq] at ht'
      rw [he, Option.some.injEq] at he'
      subst ht' he'
      have := h2 p _ x (List.getElem?_eq_getElem hp) hx
      rw [hd] at this
      by_cases hk : t = k
      · rw [if_pos hk] at this ⊢; exact this
      · rw [if_neg hk] at this ⊢; exact this
    refine ⟨⟨h1, ?_⟩, ?_⟩
    · intro p e x he hx
      have hp : p < is.length := by
        have := (List.getElem?_eq_some_iff.1 he).1
        simp at this; omega
      have := key p is[p] e x (List.getElem?_eq_getElem hp) he hx
      by_cases hk : is[p] = k
      · rw [if_pos hk] at this
        have := hr p e (by rw [List.getElem?_eq_getElem hp, hk]) he
        omega
      · rw [if_neg hk] at this
        exact this
    · intro p x ht hx
      have hp : p < (dims.map SDim.val).length := by
        have := (List.getElem?_eq_some_iff.1 ht).1
        simp; omega
      have := key p k _ x ht (List.getElem?_eq_getElem hp) hx
      rw [if_pos rfl] at this
      exact this
  · rintro ⟨⟨h1, h2⟩, h3⟩
    refine ⟨h1, ?_⟩
    intro p d x hd hx
    obtain ⟨t, e, ht, he, rfl⟩ := tileDims_get hd
    by_cases hk : t = k
    · subst hk
      simp only [if_true]
      exact h3 p x ht hx
    · simp only [if_neg hk]
      exact h2 p e x he hx

theorem tileOp_is (o : EinOp α) : (tileOp k v o).is = o.is := by
  obtain ⟨op, is⟩ := o
  cases op <;> rfl

theorem leaves_tile (e : EinExpr α) : leaves (tileExpr k v e) = (leaves e).map (tileOp k v) := by
  induction e with
  | op o => rfl
  | unary f e ih => exact ih
  | binary f a b iha ihb => simp only [tileExpr, leaves, iha, ihb, List.map_append]

/-- What one operand has to satisfy before it is cropped. -/
structure TileOk (k : Nat) (v : Interval) (o : EinOp α) : Prop where
  typed : OpTyped o
  inRange : TileInRange k v o

theorem tile_typed {o : EinOp α} (h : TileOk k v o) : OpTyped (tileOp k v o) := by
  obtain ⟨op, is⟩ := o
  cases op with
  | fn f => trivial
  | arr base dims =>
    have ht := h.typed
    have hl : is.length = dims.length := ht.1
    refine ⟨by rw [tileOp_is]; simp [tileDims, hl], ?_⟩
    intro d hd
    unfold tileDims at hd
    obtain ⟨p, hp, rfl⟩ := List.getElem_of_mem hd
    rw [List.getElem_zipWith]
    have hp2 : p < dims.length := by simp at hp; exact hp.2
    have := ht.2 dims[p] (List.getElem_mem _)
    by_cases hk : is[p]'(by simp at hp; omega) = k
    · rw [if_pos hk]
      exact ⟨by simp [Describes, dynamic], by simp [Describes, dynamic], this.2.2⟩
    · rw [if_neg hk]; exact this

theorem tile_einDims {base : Option Int} {dims : List SDim} {is : List Nat} :
    einDims (tileOp k v (⟨.arr base dims, is⟩ : EinOp α)).op = (tileDims k v is dims).map SDim.val := rfl

theorem tile_nonNeg {o : EinOp α} (hv : 0 ≤ v.extent) (h : NonNeg (einDims o.op)) :
    NonNeg (einDims (tileOp k v o).op) := by
  obtain ⟨op, is⟩ := o
  cases op with
  | fn f => exact h
  | arr base dims =>
    rw [tile_einDims]
    intro d hd
    obtain ⟨p, hp, rfl⟩ := List.getElem_of_mem hd
    obtain ⟨t, e, ht, he, e1⟩ := tileDims_get (List.getElem?_eq_getElem hp)
    rw [e1]
    split
    · exact hv
    · exact h e (List.mem_of_getElem? he)

theorem tile_consistent {o : EinOp α} (h : OpConsistent o) : OpConsistent (tileOp k v o) := by
  obtain ⟨op, is⟩ := o
  cases op with
  | fn f => exact h
  | arr base dims =>
    intro p q j d e hp hq hd he
    rw [tile_einDims] at hd he
    obtain ⟨j1, d1, hj1, hd1, rfl⟩ := tileDims_get hd
    obtain ⟨j2, d2, hj2, hd2, rfl⟩ := tileDims_get he
    rw [show (tileOp k v (⟨.arr base dims, is⟩ : EinOp α)).is = is from rfl] at hp hq
    rw [hp, Option.some.injEq] at hj1
    rw [hq, Option.some.injEq] at hj2
    subst hj1 hj2
    split
    · exact ⟨rfl, rfl⟩
    · exact h p q j d1 d2 hp hq hd1 hd2

/-- Pointer and offset of an element of the crop. -/
theorem tile_address {base : Option Int} {dims : List SDim} {is : List Nat} (hl : is.length = dims.length) (j : Index)
    (hj : j.length = dims.length) :
    ((ArrayRef.crop ⟨base, dims.map SDim.val⟩ (tileArgs k v is)).base.map
      (· + offsetOf ((tileDims k v is dims).map SDim.val) j)) =
    base.map (· + offsetOf (dims.map SDim.val) j) := by
  rw [tileDims_val hl, ← tile_offset (k := k) (v := v) is (dims.map SDim.val) (by simpa using hl) j (by simpa using hj)]
  unfold ArrayRef.crop
  dsimp only
  rw [flatOffset_eq]
  cases base with
  | none => rfl
  | some b => simp [pointerAdd]; ring

theorem tile_base_none {base : Option Int} {s : Shape} {args : List Arg} :
    (ArrayRef.crop ⟨base, s⟩ args).base = none ↔ base = none := by
  unfold ArrayRef.crop
  cases base <;> simp [pointerAdd]

theorem tile_element {o : EinOp α} (h : TileOk k v o) {a : Int} (ha : OpElement (tileOp k v o) a) : OpElement o a := by
  obtain ⟨op, is⟩ := o
  cases op with
  | fn f => exact ha
  | arr base dims =>
    obtain ⟨b, j, hb, hj, rfl⟩ := ha
    have hl := h.typed.1
    have hj' := (tile_inBox hl (fun p d => h.inRange p d) j).1 hj
    have hlen : j.length = dims.length := by have := inBox_length hj'.1; simpa using this
    have hadr := tile_address (k := k) (v := v) (base := base) hl j hlen
    rw [hb] at hadr
    cases base with
    | none => simp at hadr
    | some b' =>
      simp only [Option.map_some, Option.some.injEq] at hadr
      exact ⟨b', j, rfl, hj'.1, hadr⟩

theorem tile_backed {o : EinOp α} (h : TileOk k v o) (hb : OpBacked o) : OpBacked (tileOp k v o) := by
  obtain ⟨op, is⟩ := o
  cases op with
  | fn f => exact hb
  | arr base dims =>
    intro e j hj
    exact hb (tile_base_none.1 e) j ((tile_inBox h.typed.1 (fun p d => h.inRange p d) j).1 hj).1

theorem tile_injective {o : EinOp α} (h : TileOk k v o) (hi : Injective (einDims o.op)) :
    Injective (einDims (tileOp k v o).op) := by
  obtain ⟨op, is⟩ := o
  cases op with
  | fn f => exact hi
  | arr base dims =>
    rw [tile_einDims]
    have hl := h.typed.1
    intro i j h1 h2 e
    have h1' := ((tile_inBox hl (fun p d => h.inRange p d) i).1 h1).1
    have h2' := ((tile_inBox hl (fun p d => h.inRange p d) j).1 h2).1
    refine hi i j h1' h2' ?_
    have hli : i.length = (dims.map SDim.val).length := inBox_length h1'
    have hlj : j.length = (dims.map SDim.val).length := inBox_length h2'
    rw [tileDims_val hl] at e
    have e1 := tile_offset (k := k) (v := v) is (dims.map SDim.val) (by simpa using hl) i hli
    have e2 := tile_offset (k := k) (v := v) is (dims.map SDim.val) (by simpa using hl) j hlj
    show offsetOf (dims.map SDim.val) i = offsetOf (dims.map SDim.val) j
    linarith

theorem tile_uses {o : EinOp α} (t : Nat) : OpUses (tileOp k v o) t ↔ OpUses o t := by
  obtain ⟨op, is⟩ := o
  cases op <;> exact Iff.rfl

theorem tile_opInRange {o : EinOp α} (h : TileOk k v o) (i : Index) :
    OpInRange (tileOp k v o) i ↔ OpInRange o i ∧ (OpUses o k → InIvl v (i.getD k 0)) := by
  obtain ⟨op, is⟩ := o
  cases op with
  | fn f => simp [tileOp, OpInRange, OpUses]
  | arr base dims =>
    show InBox ((tileDims k v is dims).map SDim.val) (pick is i) ↔ _
    rw [tile_inBox h.typed.1 (fun p d => h.inRange p d)]
    refine and_congr_right fun _ => ?_
    constructor
    · intro h1 hk
      obtain ⟨p, hp⟩ := List.mem_iff_getElem?.1 (show k ∈ is from hk)
      exact h1 p _ hp (pick_get hp)
    · intro h1 p x hp hx
      rw [pick_get hp, Option.some.injEq] at hx
      rw [← hx]
      exact h1 (List.mem_of_getElem? hp)

theorem tile_value {e : EinExpr α} (h : ∀ o ∈ leaves e, TileOk k v o) (hb : ∀ o ∈ leaves e, OpBacked o)
    {i : Index} (hi : ∀ o ∈ leaves e, OpInRange o i) (m : Mem α) :
    valueAt m i (tileExpr k v e) = valueAt m i e := by
  induction e with
  | op o =>
    have ho := h o (by simp [leaves])
    have hr := hi o (by simp [leaves])
    have hb := hb o (by simp [leaves])
    obtain ⟨op, is⟩ := o
    cases op with
    | fn f => rfl
    | arr base dims =>
      have hl := ho.typed.1
      have hadr := tile_address (k := k) (v := v) (base := base) hl (pick is i) (by rw [pick_length]; exact hl)
      simp only [tileExpr, tileOp, valueAt]
      cases base with
      | none => exact absurd hr (hb rfl _)
      | some b =>
        cases hc : (ArrayRef.crop ⟨some b, dims.map SDim.val⟩ (tileArgs k v is)).base with
        | none => rw [hc] at hadr; simp at hadr
        | some b' =>
          rw [hc] at hadr
          simp only [Option.map_some, Option.some.injEq] at hadr
          simp only [Option.getD_some]
          rw [hadr]
  | unary f e ih => simp only [tileExpr, valueAt]; rw [ih h hb hi]
  | binary f a b iha ihb =>
    simp only [tileExpr, valueAt]
    rw [iha (fun o ho => h o (by simp [leaves, ho])) (fun o ho => hb o (by simp [leaves, ho]))
        (fun o ho => hi o (by simp [leaves, ho])),
      ihb (fun o ho => h o (by simp [leaves, ho])) (fun o ho => hb o (by simp [leaves, ho]))
        (fun o ho => hi o (by simp [leaves, ho]))]

theorem tile_cons (lhs : EinOp α) (rhs : EinExpr α) :
    tileOp k v lhs :: leaves (tileExpr k v rhs) = (lhs :: leaves rhs).map (tileOp k v) := by
  rw [leaves_tile]; rfl

theorem tile_loopRank (ops : List (EinOp α)) : loopRank (ops.map (tileOp k v)) = loopRank ops := by
  refine loopRank_eq_of fun t => ?_
  simp only [List.mem_map, exists_exists_and_eq_and, tileOp_is]

theorem tile_loopIndex {ops : List (EinOp α)} (h : ∀ o ∈ ops, TileOk k v o) (hu : ∃ o ∈ ops, OpUses o k) (i : Index) :
    LoopIndex (ops.map (tileOp k v)) i ↔ LoopIndex ops i ∧ InIvl v (i.getD k 0) := by
  unfold LoopIndex
  rw [tile_loopRank]
  simp only [List.mem_map, forall_exists_index, and_imp, forall_apply_eq_imp_iff₂, tile_uses]
  constructor
  · rintro ⟨h1, h2, h3⟩
    obtain ⟨o, ho, hk⟩ := hu
    exact ⟨⟨h1, fun o ho => ((tile_opInRange (h o ho) i).1 (h2 o ho)).1, h3⟩,
      ((tile_opInRange (h o ho) i).1 (h2 o ho)).2 hk⟩
  · rintro ⟨⟨h1, h2, h3⟩, h4⟩
    exact ⟨h1, fun o ho => (tile_opInRange (h o ho) i).2 ⟨h2 o ho, fun _ => h4⟩, h3⟩

theorem einInput_tile {lhs : EinOp α} {rhs : EinExpr α} (hv : 0 ≤ v.extent) (h : EinInput lhs rhs)
    (hr : ∀ o ∈ lhs :: leaves rhs, TileInRange k v o) : EinInput (tileOp k v lhs) (tileExpr k v rhs) := by
  have ok : ∀ o ∈ lhs :: leaves rhs, TileOk k v o := fun o ho => ⟨h.typed o ho, hr o ho⟩
  have hm : ∀ {Q : EinOp α → Prop}, (∀ o ∈ lhs :: leaves rhs, Q (tileOp k v o)) →
      ∀ o ∈ tileOp k v lhs :: leaves (tileExpr k v rhs), Q o := by
    intro Q hQ o ho
    rw [tile_cons] at ho
    obtain ⟨o1, ho1, rfl⟩ := List.mem_map.1 ho
    exact hQ o1 ho1
  refine ⟨hm fun o ho => tile_typed (ok o ho), hm fun o ho => tile_nonNeg hv (h.nonNeg o ho),
    hm fun o ho => tile_consistent (h.consistent o ho), hm fun o ho => tile_backed (ok o ho) (h.backed o ho),
    tile_injective (ok lhs (by simp)) h.injective, ?_⟩
  intro o ho a hl hoa
  rw [leaves_tile] at ho
  obtain ⟨o1, ho1, rfl⟩ := List.mem_map.1 ho
  exact h.separate o1 ho1 a (tile_element (ok lhs (by simp)) hl) (tile_element (ok o1 (by simp [ho1])) hoa)

theorem reconcile_equal {l : List SDim} {a b : Int} (h : ∀ x ∈ l, x.val.min = a ∧ x.val.extent = b) :
    reconcileAssert l = true := by
  cases l with
  | nil => rfl
  | cons d ds =>
    have hd := h d (by simp)
    simp only [reconcileAssert]
    split
    · rw [all_iff]
      intro y hy
      obtain ⟨x, hx, rfl⟩ := List.mem_map.1 hy
      have := h x (by simp [hx])
      rw [dim_isInRangeI_iff]
      simp only [Dim.toInterval]
      omega
    · rw [Bool.and_eq_true, all_iff, all_iff]
      constructor <;> intro y hy <;> obtain ⟨x, hx, rfl⟩ := List.mem_map.1 hy
      · have := h x (by simp [hx]); simp only [beq_iff_eq]; omega
      · have := h x (by simp [hx]); simp only [beq_iff_eq]; omega

theorem gather_tile {o : EinOp α} {t : Nat} (ht : t ≠ k) (htyp : OpTyped o) (kind : EinKind) :
    (tileOp k v o).gatherDims t kind = o.gatherDims t kind := by
  obtain ⟨op, is⟩ := o
  cases op with
  | fn f => rfl
  | arr base dims =>
    unfold EinOp.gatherDims
    have e : getOrEmpty (indexOf t is) (tileDims k v is dims) = getOrEmpty (indexOf t is) dims := by
      rw [getOrEmpty_eq, getOrEmpty_eq]
      congr 1
      unfold tileDims
      rw [List.getElem?_zipWith]
      by_cases hm : t ∈ is
      · rw [(indexOf_mem hm).2]
        cases dims[indexOf t is]? with
        | none => rfl
        | some d => simp [ht]
      · have := indexOf_not_mem hm
        rw [List.getElem?_eq_none this, List.getElem?_eq_none (by have : is.length = dims.length := htyp.1; omega)]
    simp only [tileOp, EinSrc.dimsOf]
    rw [e]

theorem einAssert_tile {lhs : EinOp α} {rhs : EinExpr α} (h : EinInput lhs rhs)
    (hr : ∀ o ∈ lhs :: leaves rhs, TileInRange k v o) (ha : einAssert lhs rhs = true) :
    einAssert (tileOp k v lhs) (tileExpr k v rhs) = true := by
  have ok : ∀ o ∈ lhs :: leaves rhs, TileOk k v o := fun o ho => ⟨h.typed o ho, hr o ho⟩
  have htyp : ∀ o ∈ tileOp k v lhs :: leaves (tileExpr k v rhs), OpTyped o := by
    intro o ho
    rw [tile_cons] at ho
    obtain ⟨o1, ho1, rfl⟩ := List.mem_map.1 ho
    exact tile_typed (ok o1 ho1)
  rw [einAssert_iff] at ha ⊢
  intro t ht
  rw [tile_cons, tile_loopRank] at ht
  by_cases htk : t = k
  · subst htk
    refine reconcile_equal (a := v.min) (b := v.extent) ?_
    intro x hx
    obtain ⟨o, ho, q, d, hq, hd, h1, h2⟩ := einLoopDims_bounds htyp hx
    rw [tile_cons] at ho
    obtain ⟨o1, ho1, rfl⟩ := List.mem_map.1 ho
    obtain ⟨op, is⟩ := o1
    cases op with
    | fn f => simp [tileOp, einDims] at hd
    | arr base dims =>
      rw [tile_einDims] at hd
      obtain ⟨j, e, hj, _, rfl⟩ := tileDims_get hd
      rw [show (tileOp t v (⟨.arr base dims, is⟩ : EinOp α)).is = is from rfl, hj, Option.some.injEq] at hq
      subst hq
      simp only [if_true] at h1 h2
      exact ⟨h1, h2⟩
  · have e : einLoopDims (tileOp k v lhs) (tileExpr k v rhs) t = einLoopDims lhs rhs t := by
      unfold einLoopDims
      rw [gather_tile htk (h.typed lhs (by simp)), gatherDims_eq, gatherDims_eq, leaves_tile, List.flatMap_map]
      congr 1
      have : ∀ l : List (EinOp α), (∀ o ∈ l, OpTyped o) →
          (l.flatMap fun o => (tileOp k v o).gatherDims t .operand) = l.flatMap (EinOp.gatherDims t .operand) := by
        intro l
        induction l with
        | nil => intro _; rfl
        | cons o l ih =>
          intro hl
          rw [List.flatMap_cons, List.flatMap_cons, gather_tile htk (hl o (by simp)), ih fun o ho => hl o (by simp [ho])]
      exact this _ fun o ho => h.typed o (by simp [ho])
    rw [e]
    exact ha t ht

end
end Nda
