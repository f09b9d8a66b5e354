import Verif.Lemmas.Ein
import Verif.Lemmas.Views
import Verif.Lemmas.Order
import Verif.Spec.EinAlgebra
/-
Lemmas for C65: what a reduction does, as a list of updates, and how renaming loop indices and transposing operands
changes that list.
-/
namespace Nda
open Spec
variable {α : Type}

/-! ### A reduction as a list of updates -/

theorem einReduce_updates (f : α → α → α) {lhs : EinOp α} {rhs : EinExpr α} (m : Mem α)
    (h : EinInput lhs rhs) (ha : einAssert lhs rhs = true) {lb : Int} {ld : List SDim}
    (hl : lhs.op = .arr (some lb) ld) :
    einReduce f lhs rhs m = some (updates f (fun i => lb + offsetOf (ld.map SDim.val) (pick lhs.is i))
      (fun i => valueAt m i rhs) m (boxList (einLoopShape lhs rhs))) := by
  obtain ⟨op, is⟩ := lhs
  simp only at hl
  subst hl
  set lhs : EinOp α := ⟨.arr (some lb) ld, is⟩ with hlhs
  have hmem := fun i => (mem_boxList (i := i)).trans (loopIndex_iff h.typed h.consistent ha i)
  have hr : ∀ i ∈ boxList (einLoopShape lhs rhs), ∀ o ∈ lhs :: leaves rhs, OpInRange o i :=
    fun i hi o ho => ((hmem i).1 hi).2.1 o ho
  have hrl : ∀ i ∈ boxList (einLoopShape lhs rhs), InBox (ld.map SDim.val) (pick is i) :=
    fun i hi => hr i hi lhs (by simp)
  have hfold := foldlM_step (lhs := lhs) (rhs := rhs) f (m0 := m)
    (A := fun i => lb + offsetOf (ld.map SDim.val) (pick is i)) (v := fun i => valueAt m i rhs)
    (boxList (einLoopShape lhs rhs))
    (by
      intro i _
      simp only [hlhs, EinOp.address, Option.map_some]
      rw [flatOffset_eq]; rfl)
    (by
      intro i hi m' hm'
      rw [eval_eq (fun o ho => hr i hi o (by simp [ho])) (fun o ho => h.backed o (by simp [ho]))]
      congr 1
      refine valueAt_congr (fun o ho => hr i hi o (by simp [ho])) (fun o ho => h.backed o (by simp [ho])) ?_
      intro o ho a hoa
      apply hm'
      rintro j hj rfl
      exact h.separate o ho _ ⟨lb, _, rfl, hrl j hj, rfl⟩ hoa)
  unfold einReduce
  rw [forEachIndex_eq (einLoopShape_nonNeg h.typed h.nonNeg)]
  exact hfold

theorem mem_loop {lhs : EinOp α} {rhs : EinExpr α} (h : EinInput lhs rhs) (ha : einAssert lhs rhs = true) (i : Index) :
    i ∈ boxList (einLoopShape lhs rhs) ↔ LoopIndex (lhs :: leaves rhs) i :=
  (mem_boxList (i := i)).trans (loopIndex_iff h.typed h.consistent ha i)

theorem colexLt_asymm {a b : Index} (h1 : ColexLt a b) (h2 : ColexLt b a) : False := by
  obtain ⟨_, k, x, y, hx, hy, hlt, hk⟩ := h1
  obtain ⟨_, k', x', y', hx', hy', hlt', hk'⟩ := h2
  rcases lt_trichotomy k k' with h | h | h
  · have := hk k' h
    rw [hx', hy', Option.some.injEq] at this
    omega
  · subst h
    rw [hx] at hy'
    rw [hy] at hx'
    simp only [Option.some.injEq] at hx' hy'
    omega
  · have := hk' k h
    rw [hx, hy, Option.some.injEq] at this
    omega

theorem loopIndices_unique {l l' : List Index} (h : l.Pairwise ColexLt) (h' : l'.Pairwise ColexLt)
    (hm : ∀ i, i ∈ l ↔ i ∈ l') : l = l' := by
  have hp : l.Perm l' := (List.perm_ext_iff_of_nodup (h.imp fun e => e.ne) (h'.imp fun e => e.ne)).2 hm
  exact List.Perm.eq_of_pairwise (le := ColexLt) (fun a b _ _ h1 h2 => (colexLt_asymm h1 h2).elim) h h' hp

theorem updates_congr (f : α → α → α) {A A' : Index → Int} {v v' : Index → α} (m : Mem α) {l : List Index}
    (hA : ∀ i ∈ l, A i = A' i) (hv : ∀ i ∈ l, v i = v' i) : updates f A v m l = updates f A' v' m l := by
  unfold updates
  induction l generalizing m with
  | nil => rfl
  | cons i l ih =>
    rw [List.foldl_cons, List.foldl_cons, hA i (by simp), hv i (by simp)]
    exact ih _ (fun j hj => hA j (by simp [hj])) (fun j hj => hv j (by simp [hj]))

/-- Two reductions that run over the same loop indices, update the same cells and use the same values. -/
theorem einReduce_same (f : α → α → α) {lhs lhs' : EinOp α} {rhs rhs' : EinExpr α} (m : Mem α)
    (h : EinInput lhs rhs) (ha : einAssert lhs rhs = true) (h' : EinInput lhs' rhs') (ha' : einAssert lhs' rhs' = true)
    {lb lb' : Int} {ld ld' : List SDim} (hl : lhs.op = .arr (some lb) ld) (hl' : lhs'.op = .arr (some lb') ld')
    (hi : ∀ i, LoopIndex (lhs :: leaves rhs) i ↔ LoopIndex (lhs' :: leaves rhs') i)
    (hA : ∀ i, LoopIndex (lhs :: leaves rhs) i →
      lb + offsetOf (ld.map SDim.val) (pick lhs.is i) = lb' + offsetOf (ld'.map SDim.val) (pick lhs'.is i))
    (hv : ∀ i, LoopIndex (lhs :: leaves rhs) i → valueAt m i rhs = valueAt m i rhs') :
    einReduce f lhs rhs m = einReduce f lhs' rhs' m := by
  rw [einReduce_updates f m h ha hl, einReduce_updates f m h' ha' hl']
  have e : boxList (einLoopShape lhs rhs) = boxList (einLoopShape lhs' rhs') :=
    loopIndices_unique (boxList_pairwise _) (boxList_pairwise _) fun i => by rw [mem_loop h ha, mem_loop h' ha', hi]
  rw [← e]
  exact congrArg some (updates_congr f m (fun i hm => hA i ((mem_loop h ha i).1 hm))
    (fun i hm => hv i ((mem_loop h ha i).1 hm)))

theorem loopRank_eq_of {ops ops' : List (EinOp α)} (h : ∀ k, (∃ o ∈ ops, k ∈ o.is) ↔ ∃ o ∈ ops', k ∈ o.is) :
    loopRank ops = loopRank ops' := by
  have key : ∀ {ops ops' : List (EinOp α)}, (∀ k, (∃ o ∈ ops, k ∈ o.is) → ∃ o ∈ ops', k ∈ o.is) →
      loopRank ops ≤ loopRank ops' := by
    intro ops ops' h
    induction ops with
    | nil => exact Nat.zero_le _
    | cons o ops ih =>
      rw [loopRank_cons]
      refine max_le (listRank_le ?_) (ih fun k ⟨o', ho', hk⟩ => h k ⟨o', by simp [ho'], hk⟩)
      intro k hk
      obtain ⟨o', ho', hk'⟩ := h k ⟨o, by simp, hk⟩
      exact lt_loopRank ho' hk'
  exact le_antisymm (key fun k => (h k).1) (key fun k => (h k).2)

/-! ### Renaming -/

theorem leaves_rename (σ : Nat → Nat) (e : EinExpr α) : leaves (renameExpr σ e) = (leaves e).map (renameOp σ) := by
  induction e with
  | op o => rfl
  | unary f e ih => exact ih
  | binary f a b iha ihb => simp only [renameExpr, leaves, iha, ihb, List.map_append]

theorem indexOf_rename {σ : Nat → Nat} (hσ : σ.Injective) (k : Nat) (is : List Nat) :
    indexOf (σ k) (is.map σ) = indexOf k is := by
  induction is with
  | nil => rfl
  | cons x is ih =>
    simp only [List.map_cons, indexOf, ih, hσ.eq_iff]

theorem gather_rename {σ : Nat → Nat} (hσ : σ.Injective) (k : Nat) (kind : EinKind) (o : EinOp α) :
    (renameOp σ o).gatherDims (σ k) kind = o.gatherDims k kind := by
  unfold EinOp.gatherDims renameOp
  rw [indexOf_rename hσ]

theorem gather_unused {k : Nat} {kind : EinKind} {o : EinOp α} (ht : OpTyped o) (h : k ∉ o.is) :
    o.gatherDims k kind = [] := by
  have : getOrEmpty (indexOf k o.is) o.op.dimsOf = [] := by
    rw [getOrEmpty_eq]
    obtain ⟨op, is⟩ := o
    cases op with
    | fn f => rfl
    | arr base dims =>
      rw [List.getElem?_eq_none]
      · rfl
      · have := indexOf_not_mem h
        have := ht.1
        simp only [EinSrc.dimsOf] at *
        omega
  unfold EinOp.gatherDims
  rw [this]
  cases kind <;> rfl

theorem loopDims_unused {lhs : EinOp α} {rhs : EinExpr α} {k : Nat} (ht : ∀ o ∈ lhs :: leaves rhs, OpTyped o)
    (h : ∀ o ∈ lhs :: leaves rhs, k ∉ o.is) : einLoopDims lhs rhs k = [] := by
  apply List.eq_nil_iff_forall_not_mem.2
  intro x hx
  rcases mem_einLoopDims.1 hx with hx | ⟨o, ho, hx⟩
  · rw [gather_unused (ht lhs (by simp)) (h lhs (by simp))] at hx; simp at hx
  · rw [gather_unused (ht o (by simp [ho])) (h o (by simp [ho]))] at hx; simp at hx

theorem loopDims_rename {σ : Nat → Nat} (hσ : σ.Injective) (lhs : EinOp α) (rhs : EinExpr α) (k : Nat) :
    einLoopDims (renameOp σ lhs) (renameExpr σ rhs) (σ k) = einLoopDims lhs rhs k := by
  unfold einLoopDims
  rw [gather_rename hσ, gatherDims_eq, gatherDims_eq, leaves_rename, List.flatMap_map]
  congr 2
  funext o
  exact gather_rename hσ k _ o

theorem typed_rename {σ : Nat → Nat} {o : EinOp α} (h : OpTyped o) : OpTyped (renameOp σ o) := by
  obtain ⟨op, is⟩ := o
  cases op with
  | fn f => trivial
  | arr base dims => exact ⟨by simpa [renameOp] using h.1, h.2⟩

theorem consistent_rename {σ : Nat → Nat} (hσ : σ.Injective) {o : EinOp α} (h : OpConsistent o) :
    OpConsistent (renameOp σ o) := by
  intro p q k d e hp hq hd he
  simp only [renameOp, List.getElem?_map, Option.map_eq_some_iff] at hp hq
  obtain ⟨x, hp, rfl⟩ := hp
  obtain ⟨y, hq, hxy⟩ := hq
  obtain rfl := hσ hxy
  exact h p q y d e hp hq hd he

theorem rename_cons (σ : Nat → Nat) (lhs : EinOp α) (rhs : EinExpr α) :
    renameOp σ lhs :: leaves (renameExpr σ rhs) = (lhs :: leaves rhs).map (renameOp σ) := by
  rw [leaves_rename]; rfl

theorem einInput_rename {σ : Nat → Nat} (hσ : σ.Injective) {lhs : EinOp α} {rhs : EinExpr α} (h : EinInput lhs rhs) :
    EinInput (renameOp σ lhs) (renameExpr σ rhs) := by
  have hm : ∀ {Q : EinOp α → Prop}, (∀ o ∈ lhs :: leaves rhs, Q (renameOp σ o)) →
      ∀ o ∈ renameOp σ lhs :: leaves (renameExpr σ rhs), Q o := by
    intro Q hQ o ho
    rw [rename_cons] at ho
    obtain ⟨o1, ho1, rfl⟩ := List.mem_map.1 ho
    exact hQ o1 ho1
  refine ⟨hm fun o ho => typed_rename (h.typed o ho), hm fun o ho => h.nonNeg o ho,
    hm fun o ho => consistent_rename hσ (h.consistent o ho), hm fun o ho => h.backed o ho, h.injective, ?_⟩
  intro o ho a hl hoa
  rw [leaves_rename] at ho
  obtain ⟨o1, ho1, rfl⟩ := List.mem_map.1 ho
  exact h.separate o1 ho1 a hl hoa

theorem einAssert_rename {σ : Nat → Nat} (hσ : σ.Injective) {lhs : EinOp α} {rhs : EinExpr α}
    (ht : ∀ o ∈ lhs :: leaves rhs, OpTyped o) (ha : einAssert lhs rhs = true) :
    einAssert (renameOp σ lhs) (renameExpr σ rhs) = true := by
  rw [einAssert_iff] at ha ⊢
  intro t _
  by_cases h : ∃ o ∈ renameOp σ lhs :: leaves (renameExpr σ rhs), t ∈ o.is
  · obtain ⟨o, ho, hto⟩ := h
    rw [rename_cons] at ho
    obtain ⟨o1, ho1, rfl⟩ := List.mem_map.1 ho
    obtain ⟨k, hk, rfl⟩ := List.mem_map.1 hto
    rw [loopDims_rename hσ]
    exact ha k (lt_loopRank ho1 hk)
  · rw [loopDims_unused]
    · rfl
    · intro o ho
      rw [rename_cons] at ho
      obtain ⟨o1, ho1, rfl⟩ := List.mem_map.1 ho
      exact typed_rename (ht o1 ho1)
    · intro o ho hto
      exact h ⟨o, ho, hto⟩

theorem uses_rename {σ : Nat → Nat} {o : EinOp α} {t : Nat} :
    OpUses (renameOp σ o) t ↔ ∃ k, σ k = t ∧ OpUses o k := by
  obtain ⟨op, is⟩ := o
  cases op with
  | fn f => simp [OpUses, renameOp]
  | arr base dims =>
    simp only [OpUses, renameOp, List.mem_map]
    constructor
    · rintro ⟨k, h, e⟩; exact ⟨k, e, h⟩
    · rintro ⟨k, e, h⟩; exact ⟨k, h, e⟩

/-- The loop index that belongs to `i` after the renaming. -/
noncomputable def renameIndex (σ : Nat → Nat) (n : Nat) (i : Index) : Index :=
  (List.range n).map fun t => if σ (Function.invFun σ t) = t then i.getD (Function.invFun σ t) 0 else 0

/-- The loop index that belonged to `i` before the renaming. -/
def unrenameIndex (σ : Nat → Nat) (n : Nat) (i : Index) : Index :=
  (List.range n).map fun k => i.getD (σ k) 0

theorem inRange_of_pick {o o' : EinOp α} {i i' : Index} (he : o'.op = o.op) (h : pick o'.is i' = pick o.is i) :
    OpInRange o' i' ↔ OpInRange o i := by
  obtain ⟨op, is⟩ := o
  obtain ⟨op', is'⟩ := o'
  simp only at he h
  subst he
  cases op' with
  | fn f => exact Iff.rfl
  | arr base dims => simp only [OpInRange]; rw [h]

section
variable {σ : Nat → Nat} (hσ : σ.Injective) {ops : List (EinOp α)}
include hσ

theorem inv_left (k : Nat) : Function.invFun σ (σ k) = k := Function.leftInverse_invFun hσ k

theorem pick_rename {o : EinOp α} (ho : o ∈ ops) (i : Index) :
    pick (renameOp σ o).is (renameIndex σ (loopRank (ops.map (renameOp σ))) i) = pick o.is i := by
  unfold pick
  simp only [renameOp, List.map_map]
  refine List.map_congr_left fun k hk => ?_
  have hk' : σ k < loopRank (ops.map (renameOp σ)) :=
    lt_loopRank (o := renameOp σ o) (List.mem_map_of_mem ho) (List.mem_map_of_mem hk)
  simp only [Function.comp, renameIndex]
  rw [getD_map_range hk']
  simp only [inv_left hσ, if_true]

omit hσ in
theorem pick_unrename {o : EinOp α} (ho : o ∈ ops) (i : Index) :
    pick o.is (unrenameIndex σ (loopRank ops) i) = pick (renameOp σ o).is i := by
  unfold pick
  simp only [renameOp, List.map_map]
  refine List.map_congr_left fun k hk => ?_
  simp only [unrenameIndex]
  rw [getD_map_range (lt_loopRank ho hk)]
  rfl

omit hσ in
theorem getD_unused {i : Index} (h : LoopIndex ops i) {k : Nat} (hk : ∀ o ∈ ops, ¬ OpUses o k) : i.getD k 0 = 0 := by
  by_cases hlt : k < loopRank ops
  · rw [List.getD_eq_getElem?_getD, h.2.2 k hlt hk]; rfl
  · rw [List.getD_eq_default _ _ (by have := h.1; omega)]

theorem not_uses_rename {k : Nat} : (∀ o ∈ ops.map (renameOp σ), ¬ OpUses o (σ k)) ↔ ∀ o ∈ ops, ¬ OpUses o k := by
  constructor
  · intro h o ho hu
    exact h _ (List.mem_map_of_mem ho) (uses_rename.2 ⟨k, rfl, hu⟩)
  · intro h o ho hu
    obtain ⟨o1, ho1, rfl⟩ := List.mem_map.1 ho
    obtain ⟨k', e, hu'⟩ := uses_rename.1 hu
    obtain rfl := hσ e
    exact h o1 ho1 hu'

theorem loopIndex_rename {i : Index} (h : LoopIndex ops i) :
    LoopIndex (ops.map (renameOp σ)) (renameIndex σ (loopRank (ops.map (renameOp σ))) i) := by
  refine ⟨by simp [renameIndex], ?_, ?_⟩
  · intro o' ho'
    obtain ⟨o, ho, rfl⟩ := List.mem_map.1 ho'
    exact (inRange_of_pick (o := o) (o' := renameOp σ o) rfl (pick_rename hσ ho i)).2 (h.2.1 o ho)
  · intro t ht hu
    simp only [renameIndex, List.getElem?_map, List.getElem?_range ht, Option.map_some, Option.some.injEq]
    split
    · rename_i e
      refine getD_unused h ?_
      rw [← not_uses_rename hσ, e]
      exact hu
    · rfl

theorem loopIndex_unrename {i : Index} (h : LoopIndex (ops.map (renameOp σ)) i) :
    LoopIndex ops (unrenameIndex σ (loopRank ops) i) := by
  refine ⟨by simp [unrenameIndex], ?_, ?_⟩
  · intro o ho
    exact (inRange_of_pick (o := o) (o' := renameOp σ o) rfl (pick_unrename ho i).symm).1
      (h.2.1 _ (List.mem_map_of_mem ho))
  · intro k hk hu
    simp only [unrenameIndex, List.getElem?_map, List.getElem?_range hk, Option.map_some, Option.some.injEq]
    exact getD_unused h ((not_uses_rename hσ).2 hu)

theorem unrename_rename {i : Index} (h : LoopIndex ops i) :
    unrenameIndex σ (loopRank ops) (renameIndex σ (loopRank (ops.map (renameOp σ))) i) = i := by
  conv_rhs => rw [list_eq_map_getD h.1]
  unfold unrenameIndex
  refine List.map_congr_left fun k hk => ?_
  by_cases hlt : σ k < loopRank (ops.map (renameOp σ))
  · unfold renameIndex
    rw [getD_map_range hlt]
    simp only [inv_left hσ, if_true]
  · rw [List.getD_eq_default _ _ (by simp [renameIndex]; omega)]
    refine (getD_unused h fun o ho hu => hlt ?_).symm
    exact lt_loopRank (o := renameOp σ o) (List.mem_map_of_mem ho) (opUses_mem (uses_rename.2 ⟨k, rfl, hu⟩))

theorem rename_unrename {i : Index} (h : LoopIndex (ops.map (renameOp σ)) i) :
    renameIndex σ (loopRank (ops.map (renameOp σ))) (unrenameIndex σ (loopRank ops) i) = i := by
  conv_rhs => rw [list_eq_map_getD h.1]
  unfold renameIndex
  refine List.map_congr_left fun t ht => ?_
  split
  · rename_i e
    by_cases hlt : Function.invFun σ t < loopRank ops
    · unfold unrenameIndex
      rw [getD_map_range hlt, e]
    · rw [List.getD_eq_default _ _ (by simp [unrenameIndex]; omega)]
      refine (getD_unused h ?_).symm
      rw [← e, not_uses_rename hσ]
      intro o ho hu
      exact hlt (lt_loopRank ho (opUses_mem hu))
  · rename_i hne
    refine (getD_unused h ?_).symm
    intro o ho hu
    obtain ⟨o1, ho1, rfl⟩ := List.mem_map.1 ho
    obtain ⟨k, rfl, _⟩ := uses_rename.1 hu
    rw [inv_left hσ] at hne
    exact hne rfl

theorem valueAt_rename (m : Mem α) (e : EinExpr α) (he : ∀ o ∈ leaves e, o ∈ ops) (i : Index) :
    valueAt m (renameIndex σ (loopRank (ops.map (renameOp σ))) i) (renameExpr σ e) = valueAt m i e := by
  induction e with
  | op o =>
    have := pick_rename hσ (he o (by simp [leaves])) i
    obtain ⟨op, is⟩ := o
    cases op with
    | fn f => simp only [renameExpr, valueAt, renameOp] at this ⊢; rw [this]
    | arr base dims => simp only [renameExpr, valueAt, renameOp] at this ⊢; rw [this]
  | unary f e ih => simp only [renameExpr, valueAt]; rw [ih he]
  | binary f a b iha ihb =>
    simp only [renameExpr, valueAt]
    rw [iha fun o ho => he o (by simp [leaves, ho]), ihb fun o ho => he o (by simp [leaves, ho])]

end

/-! ### Transposed operands -/

/-- What replacing an operand must keep. -/
structure OpSame (o o' : EinOp α) : Prop where
  typed : OpTyped o → OpTyped o'
  nonNeg : NonNeg (einDims o.op) → NonNeg (einDims o'.op)
  consistent : OpConsistent o → OpConsistent o'
  backed : OpBacked o → OpBacked o'
  injective : Injective (einDims o.op) → Injective (einDims o'.op)
  element : ∀ a, OpElement o' a ↔ OpElement o a
  inRange : ∀ i, OpInRange o' i ↔ OpInRange o i
  uses : ∀ k, OpUses o' k ↔ OpUses o k
  mem : ∀ k, k ∈ o'.is ↔ k ∈ o.is
  value : ∀ (m : Mem α) i, valueAt m i (.op o') = valueAt m i (.op o)
  address : ∀ i, o'.address i = o.address i

theorem OpSame.refl (o : EinOp α) : OpSame o o :=
  ⟨id, id, id, id, id, fun _ => Iff.rfl, fun _ => Iff.rfl, fun _ => Iff.rfl, fun _ => Iff.rfl, fun _ _ => rfl,
    fun _ => rfl⟩

section
variable {P : List Nat} {base : Option Int} {dims : List SDim} {is : List Nat}

theorem dims_transposed (hP : P.Perm (List.range dims.length)) :
    (P.map fun p => dims.getD p default).map SDim.val = P.map fun p => (dims.map SDim.val).getD p default := by
  rw [List.map_map]
  refine List.map_congr_left fun p hp => ?_
  have : p < dims.length := List.mem_range.1 (hP.mem_iff.1 hp)
  simp [List.getD_eq_getElem?_getD, this]

theorem pick_transposed (hP : P.Perm (List.range is.length)) (i : Index) :
    pick (P.map fun p => is.getD p 0) i = P.map fun p => (pick is i).getD p 0 := by
  unfold pick
  rw [List.map_map]
  refine List.map_congr_left fun p hp => ?_
  have : p < is.length := List.mem_range.1 (hP.mem_iff.1 hp)
  simp [List.getD_eq_getElem?_getD, this]

theorem opSame_transposed {o o' : EinOp α} (h : TransposedOp P o o') : OpSame o o' := by
  obtain ⟨hP, base, dims, ho, hlen, rfl⟩ := h
  obtain ⟨op, is⟩ := o
  simp only at ho hlen hP ⊢
  subst ho
  have hP2 : P.Perm (List.range dims.length) := by rw [hlen]; exact hP
  have hP3 : P.Perm (List.range (dims.map SDim.val).length) := by rw [List.length_map]; exact hP2
  have hlt : ∀ p ∈ P, p < is.length := fun p hp => List.mem_range.1 (hP.mem_iff.1 hp)
  have hdp : (P.map fun p => dims.getD p default).Perm dims := by
    conv_rhs => rw [← map_range_getD dims default]
    exact hP2.map _
  have hip : (P.map fun p => is.getD p 0).Perm is := by
    conv_rhs => rw [← map_range_getD is 0]
    exact hP.map _
  have hvp := hdp.map SDim.val
  obtain ⟨g, g1, g2, g3⟩ := perm_index hvp
  have hget : ∀ (q : Nat) {β : Type} (l : List β) (z x : β), l.length = is.length →
      (P.map fun p => l.getD p z)[q]? = some x → ∃ p, P[q]? = some p ∧ l[p]? = some x := by
    intro q β l z x hl hq
    rw [List.getElem?_map, Option.map_eq_some_iff] at hq
    obtain ⟨p, hp, rfl⟩ := hq
    have := hlt p (List.mem_of_getElem? hp)
    refine ⟨p, hp, ?_⟩
    rw [List.getD_eq_getElem?_getD, List.getElem?_eq_getElem (by omega)]
    rfl
  refine ⟨?_, ?_, ?_, ?_, ?_, ?_, ?_, ?_, ?_, ?_, ?_⟩
  · rintro ⟨_, ht⟩
    exact ⟨by simp, fun d hd => ht d (hdp.mem_iff.1 hd)⟩
  · intro hn d hd
    exact hn d (hvp.mem_iff.1 hd)
  · intro hc p q k d e hp hq hd he
    simp only [einDims] at hd he
    rw [dims_transposed hP2] at hd he
    obtain ⟨p1, hp1, hk1⟩ := hget p is 0 k rfl hp
    obtain ⟨q1, hq1, hk2⟩ := hget q is 0 k rfl hq
    obtain ⟨p2, hp2, hd2⟩ := hget p (dims.map SDim.val) default d (by simp [hlen]) hd
    obtain ⟨q2, hq2, he2⟩ := hget q (dims.map SDim.val) default e (by simp [hlen]) he
    rw [hp1, Option.some.injEq] at hp2
    rw [hq1, Option.some.injEq] at hq2
    subst hp2 hq2
    exact hc p1 q1 k d e hk1 hk2 hd2 he2
  · intro hb e i hi
    obtain ⟨i', hi', _⟩ := g3 i hi
    exact hb e i' hi'
  · intro hinj i j hi hj e
    obtain ⟨i', hi', rfl⟩ := g3 i hi
    obtain ⟨j', hj', rfl⟩ := g3 j hj
    simp only [einDims] at e
    rw [(g1 i' hi').2, (g1 j' hj').2] at e
    rw [hinj i' j' hi' hj' e]
  · intro a
    constructor
    · rintro ⟨b, i, hb, hi, rfl⟩
      obtain ⟨i', hi', rfl⟩ := g3 i hi
      exact ⟨b, i', hb, hi', by rw [(g1 i' hi').2]⟩
    · rintro ⟨b, i, hb, hi, rfl⟩
      exact ⟨b, g i, hb, (g1 i hi).1, by rw [(g1 i hi).2]⟩
  · intro i
    simp only [OpInRange]
    rw [dims_transposed hP2, pick_transposed hP, perm_inBox hP3 (by simp [pick_length, hlen])]
  · intro k
    exact hip.mem_iff
  · intro k
    exact hip.mem_iff
  · intro m i
    simp only [valueAt]
    rw [dims_transposed hP2, pick_transposed hP, perm_offset hP3 (by simp [pick_length, hlen])]
  · intro i
    unfold EinOp.address
    simp only [args_eq_pick, flatOffset_eq, values]
    rw [dims_transposed hP2, pick_transposed hP, perm_offset hP3 (by simp [pick_length, hlen])]

end

theorem sameButTransposed_leaves {e e' : EinExpr α} (h : SameButTransposed e e') :
    List.Forall₂ OpSame (leaves e) (leaves e') := by
  induction e generalizing e' with
  | op o =>
    cases e' with
    | op o' =>
      refine List.Forall₂.cons ?_ .nil
      rcases h with rfl | ⟨P, hP⟩
      · exact OpSame.refl _
      · exact opSame_transposed hP
    | unary => exact h.elim
    | binary => exact h.elim
  | unary f e ih =>
    cases e' with
    | op o' => exact h.elim
    | unary g e' => exact ih (e' := e') h.2
    | binary => exact h.elim
  | binary f a b iha ihb =>
    cases e' with
    | op o' => exact h.elim
    | unary g e' => exact h.elim
    | binary g a' b' => exact List.rel_append (iha h.2.1) (ihb h.2.2)

theorem sameButTransposed_value {e e' : EinExpr α} (h : SameButTransposed e e') (m : Mem α) (i : Index) :
    valueAt m i e' = valueAt m i e := by
  induction e generalizing e' with
  | op o =>
    cases e' with
    | op o' =>
      rcases h with rfl | ⟨P, hP⟩
      · rfl
      · exact (opSame_transposed hP).value m i
    | unary => exact h.elim
    | binary => exact h.elim
  | unary f e ih =>
    cases e' with
    | op o' => exact h.elim
    | unary g e' => obtain ⟨rfl, h⟩ := h; simp only [valueAt]; rw [ih h]
    | binary => exact h.elim
  | binary f a b iha ihb =>
    cases e' with
    | op o' => exact h.elim
    | unary g e' => exact h.elim
    | binary g a' b' => obtain ⟨rfl, h1, h2⟩ := h; simp only [valueAt]; rw [iha h1, ihb h2]

theorem forall2_mem {R : EinOp α → EinOp α → Prop} {l l' : List (EinOp α)} (h : List.Forall₂ R l l') :
    (∀ o ∈ l, ∃ o' ∈ l', R o o') ∧ ∀ o' ∈ l', ∃ o ∈ l, R o o' := by
  induction h with
  | nil => simp
  | cons h _ ih =>
    obtain ⟨h1, h2⟩ := ih
    constructor
    · intro o ho
      rcases List.mem_cons.1 ho with rfl | ho
      · exact ⟨_, by simp, h⟩
      · obtain ⟨o', ho', hr⟩ := h1 o ho; exact ⟨o', by simp [ho'], hr⟩
    · intro o ho
      rcases List.mem_cons.1 ho with rfl | ho
      · exact ⟨_, by simp, h⟩
      · obtain ⟨o', ho', hr⟩ := h2 o ho; exact ⟨o', by simp [ho'], hr⟩

theorem loopIndex_same {ops ops' : List (EinOp α)} (h : List.Forall₂ OpSame ops ops') (i : Index) :
    LoopIndex ops i ↔ LoopIndex ops' i := by
  obtain ⟨h1, h2⟩ := forall2_mem h
  have hr : loopRank ops = loopRank ops' := by
    refine loopRank_eq_of fun k => ⟨?_, ?_⟩
    · rintro ⟨o, ho, hk⟩; obtain ⟨o', ho', hs⟩ := h1 o ho; exact ⟨o', ho', (hs.mem k).2 hk⟩
    · rintro ⟨o, ho, hk⟩; obtain ⟨o', ho', hs⟩ := h2 o ho; exact ⟨o', ho', (hs.mem k).1 hk⟩
  unfold LoopIndex
  rw [hr]
  refine and_congr_right fun _ => and_congr ?_ (forall_congr' fun k => forall_congr' fun _ => ?_)
  · constructor
    · intro h o ho; obtain ⟨o', ho', hs⟩ := h2 o ho; exact (hs.inRange i).2 (h o' ho')
    · intro h o ho; obtain ⟨o', ho', hs⟩ := h1 o ho; exact (hs.inRange i).1 (h o' ho')
  · refine imp_congr ?_ Iff.rfl
    constructor
    · intro h o ho hu; obtain ⟨o', ho', hs⟩ := h2 o ho; exact h o' ho' ((hs.uses k).1 hu)
    · intro h o ho hu; obtain ⟨o', ho', hs⟩ := h1 o ho; exact h o' ho' ((hs.uses k).2 hu)

theorem einInput_same {lhs lhs' : EinOp α} {rhs rhs' : EinExpr α} (hl : OpSame lhs lhs')
    (hr : List.Forall₂ OpSame (leaves rhs) (leaves rhs')) (h : EinInput lhs rhs) : EinInput lhs' rhs' := by
  obtain ⟨_, h2⟩ := forall2_mem (List.Forall₂.cons hl hr)
  obtain ⟨_, h3⟩ := forall2_mem hr
  refine ⟨?_, ?_, ?_, ?_, hl.injective h.injective, ?_⟩
  · intro o ho; obtain ⟨o', ho', hs⟩ := h2 o ho; exact hs.typed (h.typed o' ho')
  · intro o ho; obtain ⟨o', ho', hs⟩ := h2 o ho; exact hs.nonNeg (h.nonNeg o' ho')
  · intro o ho; obtain ⟨o', ho', hs⟩ := h2 o ho; exact hs.consistent (h.consistent o' ho')
  · intro o ho; obtain ⟨o', ho', hs⟩ := h2 o ho; exact hs.backed (h.backed o' ho')
  · intro o ho a h1 h4
    obtain ⟨o', ho', hs⟩ := h3 o ho
    exact h.separate o' ho' a ((hl.element a).1 h1) ((hs.element a).1 h4)

/-! ### Subexpressions -/

theorem gather_stride {o : EinOp α} {k : Nat} {x : SDim} (hx : x ∈ o.gatherDims k .operand) : x.val.stride = 0 := by
  unfold EinOp.gatherDims at hx
  obtain ⟨y, _, rfl⟩ := List.mem_map.1 hx
  rfl

theorem reconcile_sub {l a b : List SDim} (ha : ∀ x ∈ a, x.val.stride = 0) (hl : l.length ≤ 1)
    (hb : ∀ x ∈ b, x ∈ a) (h : reconcileAssert (l ++ a) = true) : reconcileAssert (l ++ b) = true := by
  match l, hl with
  | [d], _ =>
    simp only [List.cons_append, List.nil_append, reconcileAssert] at h ⊢
    split at h
    · rename_i hs
      rw [if_pos hs]
      rw [all_iff] at h ⊢
      intro v hv
      obtain ⟨x, hx, rfl⟩ := List.mem_map.1 hv
      exact h _ (List.mem_map_of_mem (hb x hx))
    · rename_i hs
      rw [if_neg hs]
      rw [Bool.and_eq_true, all_iff, all_iff] at h ⊢
      constructor <;> intro v hv <;> obtain ⟨x, hx, rfl⟩ := List.mem_map.1 hv
      · exact h.1 _ (List.mem_map_of_mem (hb x hx))
      · exact h.2 _ (List.mem_map_of_mem (hb x hx))
  | [], _ =>
    simp only [List.nil_append] at h ⊢
    cases b with
    | nil => rfl
    | cons y b =>
      cases a with
      | nil => exact absurd (hb y (by simp)) (by simp)
      | cons x a =>
        have hx := ha x (by simp)
        have hy := ha y (hb y (by simp))
        simp only [reconcileAssert] at h ⊢
        rw [if_neg (by simp [hx]), Bool.and_eq_true, all_iff, all_iff] at h
        rw [if_neg (by simp [hy]), Bool.and_eq_true, all_iff, all_iff]
        have e : ∀ z ∈ x :: a, x.val.min = z.val.min ∧ x.val.extent = z.val.extent := by
          intro z hz
          rcases List.mem_cons.1 hz with rfl | hz
          · exact ⟨rfl, rfl⟩
          · exact ⟨by simpa using h.1 _ (List.mem_map_of_mem hz), by simpa using h.2 _ (List.mem_map_of_mem hz)⟩
        have ey := e y (hb y (by simp))
        constructor <;> intro v hv <;> obtain ⟨z, hz, rfl⟩ := List.mem_map.1 hv
        · have := e z (hb z (by simp [hz]))
          simp only [beq_iff_eq]; omega
        · have := e z (hb z (by simp [hz]))
          simp only [beq_iff_eq]; omega

/-- A right-hand side with fewer operands passes the checks if the whole one does. -/
theorem einAssert_sub {lhs : EinOp α} {e a : EinExpr α} (h : einAssert lhs e = true)
    (hs : ∀ o ∈ leaves a, o ∈ leaves e) : einAssert lhs a = true := by
  rw [einAssert_iff] at h ⊢
  intro k hk
  by_cases hlt : k < loopRank (lhs :: leaves e)
  · have := h k hlt
    unfold einLoopDims at this ⊢
    refine reconcile_sub ?_ ?_ ?_ this
    · intro x hx
      rw [gatherDims_eq, List.mem_flatMap] at hx
      obtain ⟨o, _, hx⟩ := hx
      exact gather_stride hx
    · unfold EinOp.gatherDims
      simp only [getOrEmpty_eq]
      cases (lhs.op.dimsOf)[indexOf k lhs.is]? <;> simp
    · intro x hx
      rw [gatherDims_eq, List.mem_flatMap] at hx ⊢
      obtain ⟨o, ho, hx⟩ := hx
      exact ⟨o, hs o ho, hx⟩
  · exfalso
    apply hlt
    refine lt_of_lt_of_le hk ?_
    rw [loopRank_cons, loopRank_cons]
    refine max_le_max (le_refl _) ?_
    have : ∀ l : List (EinOp α), (∀ o ∈ l, o ∈ leaves e) → loopRank l ≤ loopRank (leaves e) := by
      intro l
      induction l with
      | nil => intro _; exact Nat.zero_le _
      | cons o l ih =>
        intro hl
        rw [loopRank_cons]
        exact max_le (listRank_le fun k hk => lt_loopRank (hl o (by simp)) hk) (ih fun o ho => hl o (by simp [ho]))
    exact this _ hs

theorem einInput_sub {lhs : EinOp α} {e a : EinExpr α} (h : EinInput lhs e)
    (hs : ∀ o ∈ leaves a, o ∈ leaves e) : EinInput lhs a := by
  have hm : ∀ o ∈ lhs :: leaves a, o ∈ lhs :: leaves e := by
    intro o ho
    rcases List.mem_cons.1 ho with rfl | ho
    · simp
    · simp [hs o ho]
  exact ⟨fun o ho => h.typed o (hm o ho), fun o ho => h.nonNeg o (hm o ho), fun o ho => h.consistent o (hm o ho),
    fun o ho => h.backed o (hm o ho), h.injective, fun o ho => h.separate o (hs o ho)⟩

/-! ### The result as an operand -/

theorem einLoopDims_self {lhs : EinOp α} {rhs : EinExpr α} {g : α → α → α} (k : Nat) :
    reconcileDim (einLoopDims lhs (.binary g (.op lhs) rhs) k) = reconcileDim (einLoopDims lhs rhs k) := by
  have e : einLoopDims lhs (.binary g (.op lhs) rhs) k =
      lhs.gatherDims k .result ++ (lhs.gatherDims k .operand ++ rhs.gatherDims k .operand) := rfl
  rw [e]
  unfold einLoopDims EinOp.gatherDims
  simp only [getOrEmpty_eq]
  cases (lhs.op.dimsOf)[indexOf k lhs.is]? <;> simp [reconcileDim]

theorem einLoopShape_self {lhs : EinOp α} {rhs : EinExpr α} {g : α → α → α} :
    einLoopShape lhs (.binary g (.op lhs) rhs) = einLoopShape lhs rhs := by
  have hr : einLoopRank lhs (.binary g (.op lhs) rhs) = einLoopRank lhs rhs := by
    rw [einLoopRank_eq, einLoopRank_eq]
    simp only [leaves, List.cons_append, List.nil_append, loopRank_cons]
    omega
  unfold einLoopShape
  rw [hr]
  refine List.map_congr_left fun k _ => ?_
  rw [einLoopDims_self]

theorem einStep_self {lhs : EinOp α} {base : Option Int} {ld : List SDim} (hl : lhs.op = .arr base ld)
    (g : α → α → α) (rhs : EinExpr α) (m : Mem α) (i : Index) :
    einStep (fun _ y => y) lhs (.binary g (.op lhs) rhs) m i = einStep g lhs rhs m i := by
  obtain ⟨op, is⟩ := lhs
  simp only at hl
  subst hl
  have e : (EinExpr.binary g (.op ⟨.arr base ld, is⟩) rhs).eval m i =
      (do let x ← EinOp.eval ⟨.arr base ld, is⟩ m i; let y ← rhs.eval m i; pure (g x y)) := rfl
  unfold einStep
  rw [e]
  unfold EinOp.eval EinOp.address
  cases base with
  | none => cases rhs.eval m i <;> rfl
  | some b => cases rhs.eval m i <;> rfl

/-- The checks of the result against itself succeed. -/
theorem einAssert_self {lhs : EinOp α} {rhs : EinExpr α} {g : α → α → α} (ht : OpTyped lhs) :
    einAssert lhs (.binary g (.op lhs) rhs) = einAssert lhs rhs := by
  have hr : loopRank (lhs :: leaves (.binary g (.op lhs) rhs)) = loopRank (lhs :: leaves rhs) := by
    simp only [leaves, List.cons_append, List.nil_append, loopRank_cons]
    omega
  rw [Bool.eq_iff_iff, einAssert_iff, einAssert_iff, hr]
  refine forall_congr' fun k => forall_congr' fun _ => ?_
  have ha := fun x hx => fits_of_gather ht (n := indexOf k lhs.is) (x := x) hx
  have e : einLoopDims lhs (.binary g (.op lhs) rhs) k =
      lhs.gatherDims k .result ++ (lhs.gatherDims k .operand ++ rhs.gatherDims k .operand) := rfl
  rw [e]
  unfold einLoopDims EinOp.gatherDims
  simp only [getOrEmpty_eq] at ha ⊢
  cases hd : (lhs.op.dimsOf)[indexOf k lhs.is]? with
  | none => simp
  | some d =>
    have hw := withStride_val 0 (ha d (by simp [hd]))
    simp only [Option.toList_some, List.map_cons, List.map_nil, List.cons_append, List.nil_append, reconcileAssert,
      List.map_cons]
    split
    · rw [all_iff, all_iff]
      simp only [List.mem_cons, forall_eq_or_imp]
      refine and_iff_right ?_
      rw [dim_isInRangeI_iff]
      simp only [Dim.toInterval]
      omega
    · simp only [Bool.and_eq_true, all_iff, List.mem_cons, forall_eq_or_imp, beq_iff_eq]
      rw [and_iff_right hw.1.symm, and_iff_right hw.2.symm]

end Nda
