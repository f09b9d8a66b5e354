import Verif.Spec.Ein
import Verif.Lemmas.Algorithms
import Verif.Lemmas.Compact
import Mathlib.Algebra.BigOperators.Group.Finset.Basic
import Mathlib.Data.Int.Interval
/-
Lemmas about Einstein reductions (C41–C43).
-/
namespace Nda
open Spec
variable {α : Type}

theorem inBox_iff_get (s : List Dim) (i : List Int) :
    InBox s i ↔ i.length = s.length ∧ ∀ (k : Nat) d x, s[k]? = some d → i[k]? = some x →
      d.min ≤ x ∧ x < d.min + d.extent := by
  induction s generalizing i with
  | nil =>
    cases i with
    | nil => simp [InBox]
    | cons x i => simp [InBox]
  | cons d s ih =>
    cases i with
    | nil => simp [InBox]
    | cons x i =>
      rw [InBox, ih]
      constructor
      · rintro ⟨h0, hl, h⟩
        refine ⟨by simp [hl], fun k d' x' hd hx => ?_⟩
        cases k with
        | zero =>
          simp only [List.getElem?_cons_zero, Option.some.injEq] at hd hx
          subst hd; subst hx; exact h0
        | succ k =>
          simp only [List.getElem?_cons_succ] at hd hx
          exact h k d' x' hd hx
      · rintro ⟨hl, h⟩
        exact ⟨h 0 d x rfl rfl, by simpa using hl, fun k d' x' hd hx => h (k + 1) d' x' (by simpa using hd) (by simpa using hx)⟩

theorem operands_eq_leaves (e : EinExpr α) : e.operands = leaves e := by
  induction e with
  | op o => rfl
  | unary f e ih => exact ih
  | binary f a b iha ihb => simp only [EinExpr.operands, leaves, iha, ihb]

theorem gatherDims_eq (k : Nat) (kind : EinKind) (e : EinExpr α) :
    e.gatherDims k kind = (leaves e).flatMap (EinOp.gatherDims k kind) := by
  induction e with
  | op o => simp [EinExpr.gatherDims, leaves]
  | unary f e ih => exact ih
  | binary f a b iha ihb => simp only [EinExpr.gatherDims, leaves, iha, ihb, List.flatMap_append]

/-! ### Ranks -/

def listRank (is : List Nat) (n : Nat) : Nat := is.foldr (fun k n => max (k + 1) n) n

theorem listRank_cons (k : Nat) (is : List Nat) (n : Nat) :
    listRank (k :: is) n = max (k + 1) (listRank is n) := rfl

theorem listRank_eq (is : List Nat) (n : Nat) : listRank is n = max (listRank is 0) n := by
  induction is with
  | nil => simp [listRank]
  | cons k is ih =>
    rw [listRank_cons, listRank_cons, ih]
    omega

theorem le_listRank {is : List Nat} {n k : Nat} (h : k ∈ is) : k < listRank is n := by
  induction is with
  | nil => simp at h
  | cons x is ih =>
    rw [listRank_cons]
    rcases List.mem_cons.1 h with rfl | h
    · omega
    · have := ih h
      omega

theorem listRank_le {is : List Nat} {n : Nat} (h : ∀ k ∈ is, k < n) : listRank is 0 ≤ n := by
  induction is with
  | nil => simp [listRank]
  | cons x is ih =>
    rw [listRank_cons]
    have := ih fun k hk => h k (by simp [hk])
    have := h x (by simp)
    omega

theorem loopRank_cons (o : EinOp α) (ops : List (EinOp α)) :
    loopRank (o :: ops) = max (listRank o.is 0) (loopRank ops) := listRank_eq _ _

theorem loopRank_append (a b : List (EinOp α)) :
    loopRank (a ++ b) = max (loopRank a) (loopRank b) := by
  induction a with
  | nil =>
    show _ = max 0 _
    simp
  | cons o a ih =>
    rw [List.cons_append, loopRank_cons, loopRank_cons, ih]
    omega

theorem variadicMax_rank (is : List Nat) (h : is ≠ []) :
    variadicMax (is.map Int.ofNat) + 1 = (listRank is 0 : Int) := by
  induction is with
  | nil => exact absurd rfl h
  | cons k is ih =>
    simp only [List.map_cons, variadicMax, listRank_cons]
    cases is with
    | nil =>
      simp only [List.map_nil, variadicMax, listRank, List.foldr_nil]
      unfold imax unresolved
      split <;> simp_all <;> omega
    | cons k' is =>
      have := ih (by simp)
      unfold imax
      split <;> simp_all <;> omega

theorem maxIndex_rank (o : EinOp α) : o.maxIndex + 1 = (listRank o.is 0 : Int) := by
  unfold EinOp.maxIndex
  split
  · rename_i h
    rw [List.length_eq_zero_iff.1 h]
    rfl
  · rename_i h
    exact variadicMax_rank _ (by intro h'; apply h; rw [h']; rfl)

theorem expr_maxIndex_rank (e : EinExpr α) : e.maxIndex + 1 = (loopRank (leaves e) : Int) := by
  induction e with
  | op o =>
    rw [EinExpr.maxIndex, maxIndex_rank, leaves, loopRank_cons]
    show _ = ((max _ 0 : Nat) : Int)
    simp
  | unary f e ih => exact ih
  | binary f a b iha ihb =>
    rw [EinExpr.maxIndex, leaves, loopRank_append]
    unfold imax
    split <;> omega

theorem einLoopRank_eq (lhs : EinOp α) (rhs : EinExpr α) :
    einLoopRank lhs rhs = loopRank (lhs :: leaves rhs) := by
  unfold einLoopRank
  rw [loopRank_cons]
  have h1 := maxIndex_rank lhs
  have h2 := expr_maxIndex_rank rhs
  unfold imax
  split <;> omega

theorem lt_loopRank {ops : List (EinOp α)} {o : EinOp α} (ho : o ∈ ops) {k : Nat} (hk : k ∈ o.is) :
    k < loopRank ops := by
  induction ops with
  | nil => simp at ho
  | cons a ops ih =>
    rw [loopRank_cons]
    rcases List.mem_cons.1 ho with rfl | h
    · have := le_listRank (n := 0) hk
      omega
    · have := ih h
      omega

/-! ### The dims gathered for a loop index -/

theorem indexOf_mem {k : Nat} {is : List Nat} (h : k ∈ is) :
    indexOf k is < is.length ∧ is[indexOf k is]? = some k := by
  induction is with
  | nil => simp at h
  | cons x is ih =>
    unfold indexOf
    split
    · rename_i hk; subst hk; simp
    · rename_i hk
      have := ih (by rcases List.mem_cons.1 h with h | h; exact absurd h hk; exact h)
      refine ⟨by simp only [List.length_cons]; omega, ?_⟩
      rw [Nat.add_comm, List.getElem?_cons_succ]
      exact this.2

theorem indexOf_not_mem {k : Nat} {is : List Nat} (h : k ∉ is) : is.length ≤ indexOf k is := by
  induction is with
  | nil => simp
  | cons x is ih =>
    unfold indexOf
    rw [if_neg (by intro e; subst e; simp at h)]
    have := ih (by intro hk; apply h; simp [hk])
    simp only [List.length_cons]
    omega

theorem getOrEmpty_eq {β : Type} (n : Nat) (l : List β) : getOrEmpty n l = l[n]?.toList := by
  unfold getOrEmpty
  split
  · rename_i h; rw [List.getElem?_eq_getElem h]; rfl
  · rename_i h; rw [List.getElem?_eq_none (by omega)]; rfl

/-- The dim of an operand that `gather_dims` finds. -/
theorem mem_gather {o : EinOp α} (ht : OpTyped o) {k : Nat} {d : Dim}
    (h : ∃ x ∈ getOrEmpty (indexOf k o.is) o.op.dimsOf, x.val = d) :
    ∃ q : Nat, o.is[q]? = some k ∧ (einDims o.op)[q]? = some d := by
  obtain ⟨x, hx, rfl⟩ := h
  rw [getOrEmpty_eq, Option.mem_toList] at hx
  obtain ⟨op, is⟩ := o
  cases op with
  | fn f => simp [EinSrc.dimsOf] at hx
  | arr base dims =>
    simp only [EinSrc.dimsOf] at hx
    simp only [OpTyped] at ht
    by_cases hk : k ∈ is
    · refine ⟨_, (indexOf_mem hk).2, ?_⟩
      simp only [einDims, List.getElem?_map]
      rw [hx]; rfl
    · have h1 := indexOf_not_mem hk
      rw [List.getElem?_eq_none (by omega)] at hx
      simp at hx

theorem gather_some {dims : List SDim} {is : List Nat}
    (ht : is.length = dims.length) {k : Nat} (hk : k ∈ is) :
    ∃ x, getOrEmpty (indexOf k is) dims = [x] ∧ dims[indexOf k is]? = some x := by
  have := (indexOf_mem hk).1
  refine ⟨dims[indexOf k is], ?_, ?_⟩
  · rw [getOrEmpty_eq, List.getElem?_eq_getElem]; rfl
  · rw [List.getElem?_eq_getElem]

theorem withStride_val (st : Int) {x : SDim} (h : Fits x.ty x.val) :
    (x.withStride st).val.min = x.val.min ∧ (x.withStride st).val.extent = x.val.extent := by
  unfold SDim.withStride DimT.make
  simp only
  obtain ⟨h1, h2, _⟩ := h
  unfold ciInit
  constructor
  · split
    · rename_i h'
      exact (h1 (by simpa [isStatic, dynamic] using h')).symm
    · rfl
  · split
    · rename_i h'
      exact (h2 (by simpa [isStatic, dynamic] using h')).symm
    · rfl

theorem fits_of_gather {o : EinOp α} (ht : OpTyped o) {n : Nat} {x : SDim}
    (hx : x ∈ getOrEmpty n o.op.dimsOf) : Fits x.ty x.val := by
  rw [getOrEmpty_eq, Option.mem_toList] at hx
  obtain ⟨op, is⟩ := o
  cases op with
  | fn f => simp [EinSrc.dimsOf] at hx
  | arr base dims => exact ht.2 x (List.mem_of_getElem? hx)

/-- Bounds of a gathered dim, whatever the kind. -/
theorem gatherDims_bounds {o : EinOp α} (ht : OpTyped o) {k : Nat} {kind : EinKind} {x : SDim}
    (hx : x ∈ o.gatherDims k kind) :
    ∃ y ∈ getOrEmpty (indexOf k o.is) o.op.dimsOf, x.val.min = y.val.min ∧
      x.val.extent = y.val.extent := by
  unfold EinOp.gatherDims at hx
  cases kind with
  | result => exact ⟨x, hx, rfl, rfl⟩
  | inferred =>
    obtain ⟨y, hy, rfl⟩ := List.mem_map.1 hx
    exact ⟨y, hy, withStride_val _ (fits_of_gather ht hy)⟩
  | operand =>
    obtain ⟨y, hy, rfl⟩ := List.mem_map.1 hx
    exact ⟨y, hy, withStride_val _ (fits_of_gather ht hy)⟩

theorem gatherDims_uses {o : EinOp α} (ht : OpTyped o) {k : Nat} (hk : OpUses o k) (kind : EinKind) :
    ∃ x ∈ o.gatherDims k kind, ∃ (q : Nat) (d : Dim), o.is[q]? = some k ∧
      (einDims o.op)[q]? = some d ∧ x.val.min = d.min ∧ x.val.extent = d.extent := by
  obtain ⟨op, is⟩ := o
  cases op with
  | fn f => exact absurd hk (by simp [OpUses])
  | arr base dims =>
    simp only [OpUses] at hk
    obtain ⟨y, hy, hy2⟩ := gather_some ht.1 hk
    have hq : (einDims (EinSrc.arr base dims : EinSrc α))[indexOf k is]? = some y.val := by
      simp only [einDims, List.getElem?_map, hy2]; rfl
    have hf : Fits y.ty y.val := ht.2 y (List.mem_of_getElem? hy2)
    unfold EinOp.gatherDims
    simp only [EinSrc.dimsOf, hy]
    cases kind with
    | result => exact ⟨y, by simp, _, y.val, (indexOf_mem hk).2, hq, rfl, rfl⟩
    | inferred =>
      exact ⟨_, List.mem_map.2 ⟨y, by simp, rfl⟩, _, y.val, (indexOf_mem hk).2, hq, withStride_val _ hf⟩
    | operand =>
      exact ⟨_, List.mem_map.2 ⟨y, by simp, rfl⟩, _, y.val, (indexOf_mem hk).2, hq, withStride_val _ hf⟩

section
variable {lhs : EinOp α} {rhs : EinExpr α}

theorem mem_einLoopDims {k : Nat} {x : SDim} : x ∈ einLoopDims lhs rhs k ↔
    x ∈ lhs.gatherDims k .result ∨ ∃ o ∈ leaves rhs, x ∈ o.gatherDims k .operand := by
  unfold einLoopDims
  rw [List.mem_append, gatherDims_eq, List.mem_flatMap]

theorem einLoopDims_bounds (ht : ∀ o ∈ lhs :: leaves rhs, OpTyped o) {k : Nat} {x : SDim}
    (hx : x ∈ einLoopDims lhs rhs k) : ∃ o ∈ lhs :: leaves rhs, ∃ (q : Nat) (d : Dim),
      o.is[q]? = some k ∧ (einDims o.op)[q]? = some d ∧ x.val.min = d.min ∧ x.val.extent = d.extent := by
  have key : ∃ o ∈ lhs :: leaves rhs, ∃ kind, x ∈ o.gatherDims k kind := by
    rcases mem_einLoopDims.1 hx with h | ⟨o, ho, h⟩
    · exact ⟨lhs, by simp, _, h⟩
    · exact ⟨o, by simp [ho], _, h⟩
  obtain ⟨o, ho, kind, hg⟩ := key
  obtain ⟨y, hy, h1, h2⟩ := gatherDims_bounds (ht o ho) hg
  obtain ⟨q, h3, h4⟩ := mem_gather (ht o ho) ⟨y, hy, rfl⟩
  exact ⟨o, ho, q, _, h3, h4, h1, h2⟩

theorem einLoopDims_uses (ht : ∀ o ∈ lhs :: leaves rhs, OpTyped o) {k : Nat} {o : EinOp α}
    (ho : o ∈ lhs :: leaves rhs) (hk : OpUses o k) :
    ∃ x ∈ einLoopDims lhs rhs k, ∃ (q : Nat) (d : Dim), o.is[q]? = some k ∧
      (einDims o.op)[q]? = some d ∧ x.val.min = d.min ∧ x.val.extent = d.extent := by
  rcases List.mem_cons.1 ho with rfl | ho'
  · obtain ⟨x, hx, h⟩ := gatherDims_uses (ht _ ho) hk .result
    exact ⟨x, mem_einLoopDims.2 (Or.inl hx), h⟩
  · obtain ⟨x, hx, h⟩ := gatherDims_uses (ht _ ho) hk .operand
    exact ⟨x, mem_einLoopDims.2 (Or.inr ⟨o, ho', hx⟩), h⟩

/-- What the assertions of `reconcile_dim` say. -/
theorem reconcile_range {l : List SDim} (h : reconcileAssert l = true) {x : SDim} (hx : x ∈ l) {i : Int}
    (hi : (reconcileDim l).val.min ≤ i ∧ i < (reconcileDim l).val.min + (reconcileDim l).val.extent) :
    x.val.min ≤ i ∧ i < x.val.min + x.val.extent := by
  cases l with
  | nil => simp at hx
  | cons d0 ds =>
    simp only [reconcileDim] at hi
    rcases List.mem_cons.1 hx with rfl | hx
    · exact hi
    · dsimp only [reconcileAssert] at h
      split at h
      · rw [all_iff] at h
        have : x.val.isInRangeI d0.val.toInterval = true := h _ (List.mem_map.2 ⟨x, hx, rfl⟩)
        simp only [Dim.isInRangeI, Interval.max, Dim.max, Dim.toInterval, Bool.and_eq_true] at this
        have h1 := of_decide_eq_true this.1
        have h2 := of_decide_eq_true this.2
        omega
      · rw [Bool.and_eq_true, all_iff, all_iff] at h
        have h1 := h.1 _ (List.mem_map.2 ⟨x, hx, rfl⟩)
        have h2 := h.2 _ (List.mem_map.2 ⟨x, hx, rfl⟩)
        simp only [beq_iff_eq] at h1 h2
        omega

theorem einAssert_iff : einAssert lhs rhs = true ↔
    ∀ k, k < loopRank (lhs :: leaves rhs) → reconcileAssert (einLoopDims lhs rhs k) = true := by
  unfold einAssert
  rw [List.all_eq_true, einLoopRank_eq]
  simp only [List.mem_range]

theorem einLoopShape_length : List.length (einLoopShape lhs rhs) = loopRank (lhs :: leaves rhs) := by
  unfold einLoopShape
  rw [List.length_map, List.length_range, einLoopRank_eq]

theorem einLoopShape_get {k : Nat} {d : Dim} :
    (einLoopShape lhs rhs)[k]? = some d ↔
      k < loopRank (lhs :: leaves rhs) ∧ (reconcileDim (einLoopDims lhs rhs k)).val = d := by
  unfold einLoopShape
  rw [List.getElem?_map, einLoopRank_eq]
  by_cases hk : k < loopRank (lhs :: leaves rhs)
  · rw [List.getElem?_range hk]
    simp [hk]
  · rw [List.getElem?_eq_none (by simpa using hk)]
    simp [hk]

theorem pick_length (is : List Nat) (i : Index) : (pick is i).length = is.length := by simp [pick]

theorem pick_get {is : List Nat} {i : Index} {p k : Nat} (h : is[p]? = some k) :
    (pick is i)[p]? = some (i.getD k 0) := by
  unfold pick
  rw [List.getElem?_map, h]; rfl

/-- If the assertions pass, every operand is in range for every index of the loops. -/
theorem opInRange_of_loop (ht : ∀ o ∈ lhs :: leaves rhs, OpTyped o)
    (hc : ∀ o ∈ lhs :: leaves rhs, OpConsistent o) (ha : einAssert lhs rhs = true) {i : Index}
    (hi : InBox (einLoopShape lhs rhs) i) {o : EinOp α} (ho : o ∈ lhs :: leaves rhs) : OpInRange o i := by
  have ht' := ht o ho
  have hc' := hc o ho
  have hu := fun k => einLoopDims_uses ht (k := k) ho
  have hr := fun k hk => lt_loopRank (k := k) ho hk
  obtain ⟨op, is⟩ := o
  cases op with
  | fn f => trivial
  | arr base dims =>
    simp only [OpInRange]
    rw [inBox_iff_get] at hi ⊢
    refine ⟨by rw [pick_length, List.length_map]; exact ht'.1, fun p d x hd hx => ?_⟩
    have hp : p < is.length := by
      have := (List.getElem?_eq_some_iff.1 hx).1
      rwa [pick_length] at this
    have hk : is[p]? = some is[p] := List.getElem?_eq_getElem hp
    have hmem : is[p] ∈ is := List.getElem_mem hp
    obtain ⟨y, hy, q, e, hq, he, h1, h2⟩ := hu is[p] hmem
    obtain ⟨h3, h4⟩ := hc' p q is[p] d e hk hq hd he
    have hlt := hr is[p] hmem
    have hx' : x = i.getD is[p] 0 := by
      have := pick_get (i := i) hk
      rw [hx] at this
      exact Option.some.inj this
    have hig : i[is[p]]? = some (i.getD is[p] 0) := by
      have : is[p] < i.length := by rw [hi.1, einLoopShape_length]; exact hlt
      rw [List.getD_eq_getElem?_getD, List.getElem?_eq_getElem this]; rfl
    have := hi.2 is[p] _ _ (einLoopShape_get.2 ⟨hlt, rfl⟩) hig
    have := reconcile_range (einAssert_iff.1 ha _ hlt) hy this
    rw [hx']
    omega

theorem loopIndex_iff (ht : ∀ o ∈ lhs :: leaves rhs, OpTyped o)
    (hc : ∀ o ∈ lhs :: leaves rhs, OpConsistent o) (ha : einAssert lhs rhs = true) (i : Index) :
    InBox (einLoopShape lhs rhs) i ↔ LoopIndex (lhs :: leaves rhs) i := by
  constructor
  · intro hi
    refine ⟨by rw [inBox_length hi, einLoopShape_length], fun o ho => opInRange_of_loop ht hc ha hi ho,
      fun k hk hn => ?_⟩
    rw [inBox_iff_get] at hi
    have hl : k < i.length := by rw [hi.1, einLoopShape_length]; exact hk
    have := hi.2 k _ _ (einLoopShape_get.2 ⟨hk, rfl⟩) (List.getElem?_eq_getElem hl)
    have he : einLoopDims lhs rhs k = [] := by
      rw [List.eq_nil_iff_forall_not_mem]
      intro x hx
      obtain ⟨o, ho, q, d, h1, h2, _⟩ := einLoopDims_bounds ht hx
      apply hn o ho
      obtain ⟨op, is⟩ := o
      cases op with
      | fn f => simp [einDims] at h2
      | arr base dims => exact List.mem_of_getElem? h1
    rw [he] at this
    simp only [reconcileDim, DimT.default_, DimT.ofExtent, DimT.make, ciInit, isStatic, dynamic] at this
    rw [List.getElem?_eq_getElem hl]
    simp at this
    congr 1
    omega
  · rintro ⟨hl, hr, h0⟩
    rw [inBox_iff_get]
    refine ⟨by rw [hl, einLoopShape_length], fun k d x hd hx => ?_⟩
    obtain ⟨hk, rfl⟩ := einLoopShape_get.1 hd
    cases he : einLoopDims lhs rhs k with
    | nil =>
      have : i[k]? = some 0 := by
        apply h0 k hk
        intro o ho hu
        obtain ⟨y, hy, _⟩ := einLoopDims_uses ht ho hu
        rw [he] at hy
        simp at hy
      rw [hx] at this
      simp only [Option.some.injEq] at this
      subst this
      decide
    | cons y ys =>
      simp only [reconcileDim]
      obtain ⟨o, ho, q, d, h1, h2, h3, h4⟩ := einLoopDims_bounds ht (k := k) (x := y) (by simp [he])
      have := hr o ho
      obtain ⟨op, is⟩ := o
      cases op with
      | fn f => simp [einDims] at h2
      | arr base dims =>
        simp only [OpInRange] at this
        rw [inBox_iff_get] at this
        have := this.2 q d _ h2 (pick_get h1)
        have e : i.getD k 0 = x := by rw [List.getD_eq_getElem?_getD, hx]; rfl
        rw [e] at this
        omega

/-- The extents of the loops. -/
theorem einLoopShape_nonNeg (ht : ∀ o ∈ lhs :: leaves rhs, OpTyped o)
    (hn : ∀ o ∈ lhs :: leaves rhs, NonNeg (einDims o.op)) : NonNeg (einLoopShape lhs rhs) := by
  intro d hd
  obtain ⟨k, hk⟩ := List.mem_iff_getElem?.1 hd
  obtain ⟨hk, rfl⟩ := einLoopShape_get.1 hk
  cases he : einLoopDims lhs rhs k with
  | nil => decide
  | cons y ys =>
    obtain ⟨o, ho, q, d, h1, h2, h3, h4⟩ := einLoopDims_bounds ht (k := k) (x := y) (by simp [he])
    simp only [reconcileDim]
    rw [h4]
    exact hn o ho d (List.mem_of_getElem? h2)

/-! ### The reduction -/

theorem args_eq_pick (o : EinOp α) (i : Index) : o.args i = pick o.is i := rfl

theorem eval_eq {e : EinExpr α} {m : Mem α} {i : Index}
    (hr : ∀ o ∈ leaves e, OpInRange o i) (hb : ∀ o ∈ leaves e, OpBacked o) : e.eval m i = some (valueAt m i e) := by
  induction e with
  | op o =>
    have hr' := hr o (by simp [leaves])
    have hb' := hb o (by simp [leaves])
    obtain ⟨op, is⟩ := o
    cases op with
    | fn f => rfl
    | arr base dims =>
      simp only [OpInRange] at hr'
      simp only [OpBacked] at hb'
      cases base with
      | none => exact absurd hr' (hb' rfl _)
      | some b =>
        simp only [EinExpr.eval, EinOp.eval, valueAt, Option.map_some, Option.getD_some]
        rw [args_eq_pick, flatOffset_eq]
        rfl
  | unary f e ih =>
    simp only [EinExpr.eval, valueAt]
    rw [ih hr hb]; rfl
  | binary f a b iha ihb =>
    simp only [EinExpr.eval, valueAt, leaves, List.mem_append] at *
    rw [iha (fun o h => hr o (Or.inl h)) (fun o h => hb o (Or.inl h)),
      ihb (fun o h => hr o (Or.inr h)) (fun o h => hb o (Or.inr h))]
    rfl

/-- The value of an expression depends only on the elements of its operands. -/
theorem valueAt_congr {e : EinExpr α} {m m' : Mem α} {i : Index}
    (hr : ∀ o ∈ leaves e, OpInRange o i) (hb : ∀ o ∈ leaves e, OpBacked o)
    (h : ∀ o ∈ leaves e, ∀ a, OpElement o a → m' a = m a) : valueAt m' i e = valueAt m i e := by
  induction e with
  | op o =>
    have hr' := hr o (by simp [leaves])
    have hb' := hb o (by simp [leaves])
    have h' := h o (by simp [leaves])
    obtain ⟨op, is⟩ := o
    cases op with
    | fn f => rfl
    | arr base dims =>
      simp only [OpInRange] at hr'
      simp only [OpBacked] at hb'
      cases base with
      | none => exact absurd hr' (hb' rfl _)
      | some b => exact h' _ ⟨b, _, rfl, hr', rfl⟩
  | unary f e ih => simp only [valueAt]; rw [ih hr hb h]
  | binary f a b iha ihb =>
    simp only [valueAt, leaves, List.mem_append] at *
    rw [iha (fun o h => hr o (Or.inl h)) (fun o h => hb o (Or.inl h)) (fun o ho => h o (Or.inl ho)),
      ihb (fun o h => hr o (Or.inr h)) (fun o h => hb o (Or.inr h)) (fun o ho => h o (Or.inr ho))]

/-- Updating cells `A i` for each `i` of a list, in order. -/
def updates (f : α → α → α) (A : Index → Int) (v : Index → α) (m : Mem α) (l : List Index) : Mem α :=
  l.foldl (fun m i => m.set (A i) (f (m (A i)) (v i))) m

theorem updates_apply (f : α → α → α) (A : Index → Int) (v : Index → α) (m : Mem α) (l : List Index)
    (a : Int) : updates f A v m l a =
      ((l.filter fun i => A i = a).map v).foldl f (m a) := by
  induction l generalizing m with
  | nil => rfl
  | cons i l ih =>
    unfold updates at ih ⊢
    rw [List.foldl_cons, ih]
    by_cases h : A i = a
    · subst h
      simp [Mem.set_same]
    · rw [Mem.set_other _ _ (fun e => h e.symm)]
      simp [h]

theorem foldlM_step (f : α → α → α) {A : Index → Int} {v : Index → α} {m0 : Mem α} (l : List Index)
    (hA : ∀ i ∈ l, lhs.address i = some (A i))
    (hv : ∀ i ∈ l, ∀ m : Mem α, (∀ a, (∀ j ∈ l, A j ≠ a) → m a = m0 a) → rhs.eval m i = some (v i)) :
    l.foldlM (einStep f lhs rhs) m0 = some (updates f A v m0 l) := by
  suffices H : ∀ (done todo : List Index), l = done ++ todo →
      todo.foldlM (einStep f lhs rhs) (updates f A v m0 done) = some (updates f A v m0 l) from
    H [] l rfl
  intro done todo
  induction todo generalizing done with
  | nil => intro h; rw [h, List.append_nil]; rfl
  | cons i todo ih =>
    intro h
    rw [List.foldlM_cons]
    have hi : i ∈ l := by rw [h]; simp
    have hframe : ∀ a, (∀ j ∈ l, A j ≠ a) → updates f A v m0 done a = m0 a := by
      intro a ha
      rw [updates_apply]
      rw [show (done.filter fun i => A i = a) = [] from by
        rw [List.filter_eq_nil_iff]
        intro j hj
        simpa using ha j (by rw [h]; simp [hj])]
      rfl
    have e : einStep f lhs rhs (updates f A v m0 done) i = some (updates f A v m0 (done ++ [i])) := by
      unfold einStep
      rw [hv i hi _ hframe, hA i hi]
      unfold updates
      rw [List.foldl_append]
      rfl
    rw [e]
    exact ih (done ++ [i]) (by rw [h]; simp)

end

theorem foldl_add_eq [AddCommMonoid α] (v : Index → α) (l : List Index) (x : α) :
    l.foldl (fun x i => x + v i) x = x + (l.map v).sum := by
  induction l generalizing x with
  | nil => simp
  | cons i l ih => rw [List.foldl_cons, ih, List.map_cons, List.sum_cons, add_assoc]

theorem foldl_sub_eq [AddCommGroup α] (v : Index → α) (l : List Index) (x : α) :
    l.foldl (fun x i => x - v i) x = x - (l.map v).sum := by
  induction l generalizing x with
  | nil => simp
  | cons i l ih => rw [List.foldl_cons, ih, List.map_cons, List.sum_cons, sub_sub]

theorem foldl_mul_eq [CommMonoid α] (v : Index → α) (l : List Index) (x : α) :
    l.foldl (fun x i => x * v i) x = x * (l.map v).prod := by
  induction l generalizing x with
  | nil => simp
  | cons i l ih => rw [List.foldl_cons, ih, List.map_cons, List.prod_cons, mul_assoc]

theorem pairwise_perm {l l' : List Index} (hp : l'.Pairwise ColexLt) (hnd : l.Nodup)
    (h : ∀ i, i ∈ l ↔ i ∈ l') : l'.Perm l :=
  (List.perm_ext_iff_of_nodup (hp.imp fun hab => hab.ne) hnd).2 fun i => (h i).symm

/-! ### Uniform bounds -/

/-- All dims addressed by loop index `k`, in any operand, have min `(B k).1` and extent `(B k).2`. -/
def Uniform (B : Nat → Int × Int) (ops : List (EinOp α)) : Prop :=
  ∀ o ∈ ops, ∀ (p k : Nat) (d : Dim), o.is[p]? = some k → (einDims o.op)[p]? = some d →
    d.min = (B k).1 ∧ d.extent = (B k).2

theorem Uniform.consistent {B : Nat → Int × Int} {ops : List (EinOp α)} (h : Uniform B ops) :
    ∀ o ∈ ops, OpConsistent o := by
  intro o ho p q k d e hp hq hd he
  have h1 := h o ho p k d hp hd
  have h2 := h o ho q k e hq he
  exact ⟨h1.1.trans h2.1.symm, h1.2.trans h2.2.symm⟩

theorem Uniform.einAssert {B : Nat → Int × Int} {lhs : EinOp α} {rhs : EinExpr α}
    (h : Uniform B (lhs :: leaves rhs)) (ht : ∀ o ∈ lhs :: leaves rhs, OpTyped o) :
    einAssert lhs rhs = true := by
  rw [einAssert_iff]
  intro k _
  have hb : ∀ x ∈ einLoopDims lhs rhs k, x.val.min = (B k).1 ∧ x.val.extent = (B k).2 := by
    intro x hx
    obtain ⟨o, ho, q, d, h1, h2, h3, h4⟩ := einLoopDims_bounds ht hx
    have := h o ho q k d h1 h2
    exact ⟨h3.trans this.1, h4.trans this.2⟩
  cases he : einLoopDims lhs rhs k with
  | nil => rfl
  | cons d0 ds =>
    rw [he] at hb
    have h0 := hb d0 (by simp)
    dsimp only [reconcileAssert]
    split
    · rw [all_iff]
      intro b hb'
      obtain ⟨x, hx, rfl⟩ := List.mem_map.1 hb'
      have := hb x (by simp [hx])
      simp only [Dim.isInRangeI, Interval.max, Dim.max, Dim.toInterval, Bool.and_eq_true]
      refine ⟨decide_eq_true ?_, decide_eq_true ?_⟩ <;> omega
    · rw [Bool.and_eq_true, all_iff, all_iff]
      constructor
      · intro b hb'
        obtain ⟨x, hx, rfl⟩ := List.mem_map.1 hb'
        have := hb x (by simp [hx])
        simp only [beq_iff_eq]; omega
      · intro b hb'
        obtain ⟨x, hx, rfl⟩ := List.mem_map.1 hb'
        have := hb x (by simp [hx])
        simp only [beq_iff_eq]; omega

theorem list_eq_map_getD {i : Index} {n : Nat} (h : i.length = n) :
    i = (List.range n).map fun t => i.getD t 0 := by
  apply List.ext_getElem
  · simp [h]
  · intro k h1 h2
    simp [List.getD_eq_getElem?_getD, h1]

theorem getD_map_range {n t : Nat} (h : t < n) (env : Nat → Int) :
    ((List.range n).map env).getD t 0 = env t := by
  simp [List.getD_eq_getElem?_getD, h]

theorem pick_map_range {n : Nat} {is : List Nat} (h : ∀ k ∈ is, k < n) (env : Nat → Int) :
    pick is ((List.range n).map env) = is.map env := by
  unfold pick
  apply List.map_congr_left
  intro k hk
  exact getD_map_range (h k hk) env

/-- The loop indices, described by one value per loop variable. -/
theorem loopIndex_env {B : Nat → Int × Int} {ops : List (EinOp α)} (h : Uniform B ops)
    (ht : ∀ o ∈ ops, OpTyped o) (env : Nat → Int) :
    LoopIndex ops ((List.range (loopRank ops)).map env) ↔ ∀ k, k < loopRank ops →
      ((∃ o ∈ ops, OpUses o k) → (B k).1 ≤ env k ∧ env k < (B k).1 + (B k).2) ∧
      ((∀ o ∈ ops, ¬ OpUses o k) → env k = 0) := by
  constructor
  · rintro ⟨_, hr, h0⟩ k hk
    constructor
    · rintro ⟨o, ho, hu⟩
      have hr := hr o ho
      have ht := ht o ho
      have hB := h o ho
      have hlt := fun k hk => lt_loopRank (k := k) ho hk
      obtain ⟨op, is⟩ := o
      cases op with
      | fn f => simp [OpUses] at hu
      | arr base dims =>
        simp only [OpUses] at hu
        simp only [OpInRange] at hr
        rw [pick_map_range hlt, inBox_iff_get] at hr
        obtain ⟨p, hp⟩ := List.mem_iff_getElem?.1 hu
        have hpl : p < (dims.map SDim.val).length := by
          rw [List.length_map, ← ht.1]
          exact (List.getElem?_eq_some_iff.1 hp).1
        have := hr.2 p _ (env k) (List.getElem?_eq_getElem hpl) (by simp [List.getElem?_map, hp])
        have hb := hB p k _ hp (List.getElem?_eq_getElem hpl)
        omega
    · intro hn
      have := h0 k hk hn
      simpa [hk] using this
  · intro H
    refine ⟨by simp, fun o ho => ?_, fun k hk hn => ?_⟩
    · have ht' := ht o ho
      have hB := h o ho
      have hlt := fun k hk => lt_loopRank (k := k) ho hk
      obtain ⟨op, is⟩ := o
      cases op with
      | fn f => trivial
      | arr base dims =>
        simp only [OpInRange]
        rw [pick_map_range hlt, inBox_iff_get]
        refine ⟨by rw [List.length_map, List.length_map]; exact ht'.1, fun p d x hd hx => ?_⟩
        rw [List.getElem?_map, Option.map_eq_some_iff] at hx
        obtain ⟨k, hk, rfl⟩ := hx
        have := (H k (hlt k (List.mem_of_getElem? hk))).1 ⟨_, ho, List.mem_of_getElem? hk⟩
        have hb := hB p k d hk hd
        omega
    · rw [List.getElem?_map, List.getElem?_range hk]
      simp [(H k hk).2 hn]

theorem map_range_inj {n : Nat} {e e' : Nat → Int} (h : (List.range n).map e = (List.range n).map e')
    {t : Nat} (ht : t < n) : e t = e' t := by
  rw [← getD_map_range ht e, h, getD_map_range ht]

/-- The loop indices addressing a given element, when the result uses every loop variable. -/
theorem loop_enum0 {B : Nat → Int × Int} {ops : List (EinOp α)} (h : Uniform B ops)
    (ht : ∀ o ∈ ops, OpTyped o) (lis : List Nat) (hlis : ∀ k ∈ lis, k < loopRank ops)
    (fixed : Nat → Int)
    (hf : ∀ t, t < loopRank ops → ((∃ o ∈ ops, OpUses o t) → (B t).1 ≤ fixed t ∧
      fixed t < (B t).1 + (B t).2) ∧ ((∀ o ∈ ops, ¬ OpUses o t) → fixed t = 0))
    (hu : ∀ o ∈ ops, ∀ t, OpUses o t → t ∈ lis) (i : Index) :
    LoopIndex ops i ∧ pick lis i = lis.map fixed ↔ i = (List.range (loopRank ops)).map fixed := by
  constructor
  · rintro ⟨hi, hp⟩
    have he := list_eq_map_getD hi.1
    rw [he] at hi hp ⊢
    rw [loopIndex_env h ht] at hi
    rw [pick_map_range hlis, List.map_inj_left] at hp
    apply List.map_congr_left
    intro t ht'
    rw [List.mem_range] at ht'
    by_cases hk : ∃ o ∈ ops, OpUses o t
    · obtain ⟨o, ho, hk⟩ := hk
      exact hp t (hu o ho t hk)
    · push Not at hk
      rw [(hi t ht').2 hk, (hf t ht').2 hk]
  · rintro rfl
    rw [loopIndex_env h ht, pick_map_range hlis]
    exact ⟨hf, rfl⟩

/-- The same when the result uses every loop variable but `k`. -/
theorem loop_enum1 {B : Nat → Int × Int} {ops : List (EinOp α)} (h : Uniform B ops)
    (ht : ∀ o ∈ ops, OpTyped o) (lis : List Nat) (hlis : ∀ k ∈ lis, k < loopRank ops) (k : Nat)
    (hk : k < loopRank ops) (hkl : k ∉ lis) (hku : ∃ o ∈ ops, OpUses o k) (fixed : Nat → Int)
    (hf : ∀ t, t < loopRank ops → t ≠ k → ((∃ o ∈ ops, OpUses o t) → (B t).1 ≤ fixed t ∧
      fixed t < (B t).1 + (B t).2) ∧ ((∀ o ∈ ops, ¬ OpUses o t) → fixed t = 0))
    (hu : ∀ o ∈ ops, ∀ t, OpUses o t → t = k ∨ t ∈ lis) :
    ((ints (B k).1 (B k).2).map fun z => (List.range (loopRank ops)).map (Function.update fixed k z)).Nodup ∧
    ∀ i, i ∈ ((ints (B k).1 (B k).2).map fun z => (List.range (loopRank ops)).map (Function.update fixed k z)) ↔
      LoopIndex ops i ∧ pick lis i = lis.map fixed := by
  have hup : ∀ z, lis.map (Function.update fixed k z) = lis.map fixed := by
    intro z
    apply List.map_congr_left
    intro t ht'
    exact Function.update_of_ne (by rintro rfl; exact hkl ht') _ _
  refine ⟨(ints_nodup _ _).map_on ?_, fun i => ?_⟩
  · intro x _ y _ e
    have := map_range_inj e hk
    simpa using this
  rw [List.mem_map]
  constructor
  · rintro ⟨z, hz, rfl⟩
    rw [mem_ints] at hz
    rw [loopIndex_env h ht, pick_map_range hlis]
    refine ⟨fun t ht' => ?_, hup z⟩
    by_cases e : t = k
    · subst e
      rw [Function.update_self]
      obtain ⟨o, ho, hk⟩ := hku
      exact ⟨fun _ => hz, fun hn => absurd hk (hn o ho)⟩
    · rw [Function.update_of_ne e]
      exact hf t ht' e
  · rintro ⟨hi, hp⟩
    have he := list_eq_map_getD hi.1
    refine ⟨i.getD k 0, ?_, ?_⟩
    · rw [he, loopIndex_env h ht] at hi
      rw [mem_ints]
      exact (hi k hk).1 hku
    · rw [he] at hi hp
      rw [loopIndex_env h ht] at hi
      rw [pick_map_range hlis, List.map_inj_left] at hp
      conv_rhs => rw [he]
      apply List.map_congr_left
      intro t ht'
      rw [List.mem_range] at ht'
      by_cases e : t = k
      · subst e; rw [Function.update_self]
      · rw [Function.update_of_ne e]
        by_cases hk' : ∃ o ∈ ops, OpUses o t
        · obtain ⟨o, ho, hk'⟩ := hk'
          exact (hp t ((hu o ho t hk').resolve_left e)).symm
        · push Not at hk'
          rw [(hi t ht').2 hk', (hf t ht' e).2 hk']

theorem sum_ints [AddCommMonoid α] (f : Int → α) (m e : Int) :
    ((ints m e).map f).sum = ∑ z ∈ Finset.Ico m (m + e), f z := by
  rw [← List.sum_toFinset f (ints_nodup m e)]
  apply Finset.sum_congr _ fun _ _ => rfl
  ext z
  rw [List.mem_toFinset, mem_ints, Finset.mem_Ico]

/-! ### Matrices and vectors -/

def HasBounds (B : Nat → Int × Int) (o : EinOp α) : Prop :=
  ∀ (p k : Nat) (d : Dim), o.is[p]? = some k → (einDims o.op)[p]? = some d →
    d.min = (B k).1 ∧ d.extent = (B k).2

theorem hasBounds_mat {B : Nat → Int × Int} {b : Int} {d0 d1 : SDim} {i j : Nat}
    (h0 : d0.val.min = (B i).1 ∧ d0.val.extent = (B i).2)
    (h1 : d1.val.min = (B j).1 ∧ d1.val.extent = (B j).2) :
    HasBounds B (einMat b d0 d1 i j : EinOp α) := by
  intro p k d hp hd
  match p with
  | 0 => simp [einMat, einDims] at hp hd; subst hp; subst hd; exact h0
  | 1 => simp [einMat, einDims] at hp hd; subst hp; subst hd; exact h1
  | p + 2 => simp [einMat] at hp

theorem hasBounds_vec {B : Nat → Int × Int} {b : Int} {d0 : SDim} {i : Nat}
    (h0 : d0.val.min = (B i).1 ∧ d0.val.extent = (B i).2) :
    HasBounds B (einVec b d0 i : EinOp α) := by
  intro p k d hp hd
  match p with
  | 0 => simp [einVec, einDims] at hp hd; subst hp; subst hd; exact h0
  | p + 1 => simp [einVec] at hp

theorem hasBounds_scal {B : Nat → Int × Int} {b : Int} : HasBounds B (einScal b : EinOp α) := by
  intro p k d hp hd
  simp [einScal] at hp

theorem typed_mat {b : Int} {d0 d1 : SDim} {i j : Nat} (h0 : GoodDim d0) (h1 : GoodDim d1) :
    OpTyped (einMat b d0 d1 i j : EinOp α) ∧ NonNeg (einDims (einMat b d0 d1 i j : EinOp α).op) ∧
      OpBacked (einMat b d0 d1 i j : EinOp α) := by
  refine ⟨⟨rfl, ?_⟩, ?_, ?_⟩
  · intro d hd
    simp only [List.mem_cons, List.not_mem_nil, or_false] at hd
    rcases hd with rfl | rfl
    · exact h0.1
    · exact h1.1
  · intro d hd
    simp only [einMat, einDims, List.map_cons, List.map_nil, List.mem_cons, List.not_mem_nil, or_false] at hd
    rcases hd with rfl | rfl
    · exact h0.2
    · exact h1.2
  · intro h; simp at h

theorem typed_vec {b : Int} {d0 : SDim} {i : Nat} (h0 : GoodDim d0) :
    OpTyped (einVec b d0 i : EinOp α) ∧ NonNeg (einDims (einVec b d0 i : EinOp α).op) ∧
      OpBacked (einVec b d0 i : EinOp α) := by
  refine ⟨⟨rfl, ?_⟩, ?_, ?_⟩
  · intro d hd
    simp only [List.mem_cons, List.not_mem_nil, or_false] at hd
    subst hd
    exact h0.1
  · intro d hd
    simp only [einVec, einDims, List.map_cons, List.map_nil, List.mem_cons, List.not_mem_nil, or_false] at hd
    subst hd
    exact h0.2
  · intro h; simp at h

theorem typed_scal {b : Int} :
    OpTyped (einScal b : EinOp α) ∧ NonNeg (einDims (einScal b : EinOp α).op) ∧
      OpBacked (einScal b : EinOp α) := by
  refine ⟨⟨rfl, ?_⟩, ?_, ?_⟩
  · intro d hd; simp at hd
  · intro d hd; simp [einScal, einDims] at hd
  · intro h; simp at h

theorem einInput_of {lhs : EinOp α} {rhs : EinExpr α} {B : Nat → Int × Int}
    (h : ∀ o ∈ lhs :: leaves rhs, HasBounds B o ∧ OpTyped o ∧ NonNeg (einDims o.op) ∧ OpBacked o)
    (hr : GoodResult lhs rhs) :
    EinInput lhs rhs ∧ einAssert lhs rhs = true ∧ Uniform B (lhs :: leaves rhs) ∧
      ∀ o ∈ lhs :: leaves rhs, OpTyped o := by
  have hu : Uniform B (lhs :: leaves rhs) := fun o ho => (h o ho).1
  have ht : ∀ o ∈ lhs :: leaves rhs, OpTyped o := fun o ho => (h o ho).2.1
  exact ⟨⟨ht, fun o ho => (h o ho).2.2.1, hu.consistent, fun o ho => (h o ho).2.2.2, hr.1, hr.2⟩,
    hu.einAssert ht, hu, ht⟩

theorem uses_mat {b : Int} {d0 d1 : SDim} {i j t : Nat} :
    OpUses (einMat b d0 d1 i j : EinOp α) t ↔ t = i ∨ t = j := by simp [OpUses, einMat]

theorem uses_vec {b : Int} {d0 : SDim} {i t : Nat} :
    OpUses (einVec b d0 i : EinOp α) t ↔ t = i := by simp [OpUses, einVec]

theorem uses_scal {b : Int} {t : Nat} : ¬ OpUses (einScal b : EinOp α) t := by simp [OpUses, einScal]

theorem opUses_mem {o : EinOp α} {k : Nat} (h : OpUses o k) : k ∈ o.is := by
  obtain ⟨op, is⟩ := o
  cases op with
  | fn f => simp [OpUses] at h
  | arr b d => exact h

/-- The value of an operand for a loop index given by one value per variable. -/
theorem valueAt_mat {m : Mem α} {b : Int} {d0 d1 : SDim} {i j n : Nat} (hi : i < n) (hj : j < n)
    (env : Nat → Int) : valueAt m ((List.range n).map env) (.op (einMat b d0 d1 i j)) =
      matAt m b d0 d1 (env i) (env j) := by
  simp only [valueAt, einMat, offsetOf, List.map_cons, List.map_nil, pick, add_zero, ← add_assoc,
    Option.getD_some, matAt]
  rw [getD_map_range hi, getD_map_range hj]

theorem valueAt_vec {m : Mem α} {b : Int} {d0 : SDim} {i n : Nat} (hi : i < n)
    (env : Nat → Int) : valueAt m ((List.range n).map env) (.op (einVec b d0 i)) =
      vecAt m b d0 (env i) := by
  simp only [valueAt, einVec, offsetOf, List.map_cons, List.map_nil, pick, add_zero,
    Option.getD_some, vecAt]
  rw [getD_map_range hi]

end Nda
