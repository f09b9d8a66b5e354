import Verif.Lemmas.Ein
/-
C41 (Einstein reductions), C42 (their accesses) and C43 (`make_ein_sum`).
-/
namespace Nda
open Spec
variable {α : Type}

/-- C42: if the debug checks pass, every loop index addresses an element of every operand, and of the
result.  Dims of one operand that share a loop index must agree (`OpConsistent`). -/
theorem C42_in_range (lhs : EinOp α) (rhs : EinExpr α)
    (ht : ∀ o ∈ lhs :: leaves rhs, OpTyped o) (hn : ∀ o ∈ lhs :: leaves rhs, NonNeg (einDims o.op))
    (hc : ∀ o ∈ lhs :: leaves rhs, OpConsistent o) (ha : einAssert lhs rhs = true) :
    ∃ tr, (einLoopShape lhs rhs).forEachIndex = some tr ∧
      ∀ i ∈ tr, ∀ o ∈ lhs :: leaves rhs, OpInRange o i :=
  ⟨_, forEachIndex_eq (einLoopShape_nonNeg ht hn), fun _ hi _ ho =>
    opInRange_of_loop ht hc ha (mem_boxList.1 hi) ho⟩

/-- C42: an operand that repeats no index is consistent. -/
theorem C42_no_repeat (o : EinOp α) (h : o.is.Nodup) : OpConsistent o := by
  intro p q k d e hp hq hd he
  obtain ⟨hp', hp⟩ := List.getElem?_eq_some_iff.1 hp
  obtain ⟨hq', hq⟩ := List.getElem?_eq_some_iff.1 hq
  have : p = q := (h.getElem_inj_iff).1 (hp.trans hq.symm)
  subst this
  rw [hd] at he
  simp only [Option.some.injEq] at he
  subst he
  exact ⟨rfl, rfl⟩

/-- C41: `ein_reduce(lhs op= rhs)` leaves in each element of the result the left fold of `op` over the
values of the right-hand side for all loop indices that address this element, in loop order (first
index fastest), starting from its old value; nothing else changes. -/
theorem C41_fold (f : α → α → α) (lhs : EinOp α) (rhs : EinExpr α) (m : Mem α)
    (h : EinInput lhs rhs) (ha : einAssert lhs rhs = true) (lb : Int) (ld : List SDim)
    (hl : lhs.op = .arr (some lb) ld) :
    ∃ m', einReduce f lhs rhs m = some m' ∧
      (∀ r, InBox (ld.map SDim.val) r → ∃ l : List Index,
        l.Pairwise ColexLt ∧ (∀ i, i ∈ l ↔ LoopIndex (lhs :: leaves rhs) i ∧ pick lhs.is i = r) ∧
        m' (lb + offsetOf (ld.map SDim.val) r) =
          l.foldl (fun x i => f x (valueAt m i rhs)) (m (lb + offsetOf (ld.map SDim.val) r))) ∧
      ∀ a, ¬ OpElement lhs a → m' a = m a := by
  obtain ⟨op, is⟩ := lhs
  simp only at hl
  subst hl
  set lhs : EinOp α := ⟨.arr (some lb) ld, is⟩ with hlhs
  have hmem := fun i => (mem_boxList (i := i)).trans (loopIndex_iff h.typed h.consistent ha i)
  have hr : ∀ i ∈ boxList (einLoopShape lhs rhs), ∀ o ∈ lhs :: leaves rhs, OpInRange o i :=
    fun i hi o ho => ((hmem i).1 hi).2.1 o ho
  have hrl : ∀ i ∈ boxList (einLoopShape lhs rhs), InBox (ld.map SDim.val) (pick is i) :=
    fun i hi => hr i hi lhs (by simp)
  have hfold := foldlM_step (lhs := lhs) (rhs := rhs) f (m0 := m)
    (A := fun i => lb + offsetOf (ld.map SDim.val) (pick is i)) (v := fun i => valueAt m i rhs)
    (boxList (einLoopShape lhs rhs))
    (by
      intro i _
      simp only [hlhs, EinOp.address, Option.map_some]
      rw [flatOffset_eq]; rfl)
    (by
      intro i hi m' hm'
      rw [eval_eq (fun o ho => hr i hi o (by simp [ho])) (fun o ho => h.backed o (by simp [ho]))]
      congr 1
      refine valueAt_congr (fun o ho => hr i hi o (by simp [ho])) (fun o ho => h.backed o (by simp [ho])) ?_
      intro o ho a hoa
      apply hm'
      rintro j hj rfl
      exact h.separate o ho _ ⟨lb, _, rfl, hrl j hj, rfl⟩ hoa)
  have hE : einReduce f lhs rhs m =
      (boxList (einLoopShape lhs rhs)).foldlM (einStep f lhs rhs) m := by
    unfold einReduce
    rw [forEachIndex_eq (einLoopShape_nonNeg h.typed h.nonNeg)]
    rfl
  rw [hfold] at hE
  refine ⟨_, hE, ?_, ?_⟩
  · intro r hrb
    refine ⟨(boxList (einLoopShape lhs rhs)).filter fun i => pick is i = r,
      (boxList_pairwise _).filter _, ?_, ?_⟩
    · intro i
      rw [List.mem_filter, hmem]
      show _ ∧ decide (pick is i = r) = true ↔ _ ∧ pick is i = r
      rw [decide_eq_true_eq]
    · rw [updates_apply, List.foldl_map]
      refine congrArg _ ?_
      refine List.filter_congr ?_
      intro i hi
      simp only [decide_eq_decide]
      constructor
      · intro e
        exact h.injective _ _ (hrl i hi) hrb (by simp only [hlhs, einDims]; omega)
      · rintro rfl; rfl
  · intro a hna
    rw [updates_apply]
    rw [List.filter_eq_nil_iff.2]
    · rfl
    · intro i hi
      simp only [decide_eq_true_eq]
      rintro rfl
      exact hna ⟨lb, _, rfl, hrl i hi, rfl⟩

/-- C41, `+=`: each element of the result grows by the sum, over all loop indices that address it, of
the values of the right-hand side.  (`l` is any list of these loop indices without repetition.) -/
theorem C41_sum [AddCommMonoid α] (lhs : EinOp α) (rhs : EinExpr α) (m : Mem α)
    (h : EinInput lhs rhs) (ha : einAssert lhs rhs = true) (lb : Int) (ld : List SDim)
    (hl : lhs.op = .arr (some lb) ld) :
    ∃ m', einReduce (· + ·) lhs rhs m = some m' ∧
      (∀ r, InBox (ld.map SDim.val) r → ∀ l : List Index, l.Nodup →
        (∀ i, i ∈ l ↔ LoopIndex (lhs :: leaves rhs) i ∧ pick lhs.is i = r) →
        m' (lb + offsetOf (ld.map SDim.val) r) =
          m (lb + offsetOf (ld.map SDim.val) r) + (l.map fun i => valueAt m i rhs).sum) ∧
      ∀ a, ¬ OpElement lhs a → m' a = m a := by
  obtain ⟨m', hm', h1, h2⟩ := C41_fold (· + ·) lhs rhs m h ha lb ld hl
  refine ⟨m', hm', ?_, h2⟩
  intro r hr l hnd hmem
  obtain ⟨l', hp, hmem', e⟩ := h1 r hr
  have hperm := pairwise_perm hp hnd fun i => by rw [hmem, hmem']
  rw [e, foldl_add_eq, (hperm.map _).sum_eq]

/-- C41, `-=`. -/
theorem C41_sub [AddCommGroup α] (lhs : EinOp α) (rhs : EinExpr α) (m : Mem α)
    (h : EinInput lhs rhs) (ha : einAssert lhs rhs = true) (lb : Int) (ld : List SDim)
    (hl : lhs.op = .arr (some lb) ld) :
    ∃ m', einReduce (· - ·) lhs rhs m = some m' ∧
      (∀ r, InBox (ld.map SDim.val) r → ∀ l : List Index, l.Nodup →
        (∀ i, i ∈ l ↔ LoopIndex (lhs :: leaves rhs) i ∧ pick lhs.is i = r) →
        m' (lb + offsetOf (ld.map SDim.val) r) =
          m (lb + offsetOf (ld.map SDim.val) r) - (l.map fun i => valueAt m i rhs).sum) ∧
      ∀ a, ¬ OpElement lhs a → m' a = m a := by
  obtain ⟨m', hm', h1, h2⟩ := C41_fold (· - ·) lhs rhs m h ha lb ld hl
  refine ⟨m', hm', ?_, h2⟩
  intro r hr l hnd hmem
  obtain ⟨l', hp, hmem', e⟩ := h1 r hr
  have hperm := pairwise_perm hp hnd fun i => by rw [hmem, hmem']
  rw [e, foldl_sub_eq, (hperm.map _).sum_eq]

/-- C41, `*=`. -/
theorem C41_mul [CommMonoid α] (lhs : EinOp α) (rhs : EinExpr α) (m : Mem α)
    (h : EinInput lhs rhs) (ha : einAssert lhs rhs = true) (lb : Int) (ld : List SDim)
    (hl : lhs.op = .arr (some lb) ld) :
    ∃ m', einReduce (· * ·) lhs rhs m = some m' ∧
      (∀ r, InBox (ld.map SDim.val) r → ∀ l : List Index, l.Nodup →
        (∀ i, i ∈ l ↔ LoopIndex (lhs :: leaves rhs) i ∧ pick lhs.is i = r) →
        m' (lb + offsetOf (ld.map SDim.val) r) =
          m (lb + offsetOf (ld.map SDim.val) r) * (l.map fun i => valueAt m i rhs).prod) ∧
      ∀ a, ¬ OpElement lhs a → m' a = m a := by
  obtain ⟨m', hm', h1, h2⟩ := C41_fold (· * ·) lhs rhs m h ha lb ld hl
  refine ⟨m', hm', ?_, h2⟩
  intro r hr l hnd hmem
  obtain ⟨l', hp, hmem', e⟩ := h1 r hr
  have hperm := pairwise_perm hp hnd fun i => by rw [hmem, hmem']
  rw [e, foldl_mul_eq, (hperm.map _).prod_eq]

/-- C41, `=`: if exactly one loop index addresses an element, the element becomes the value of the
right-hand side for it.  (In general the last one in loop order wins, by `C41_fold`.) -/
theorem C41_assign (lhs : EinOp α) (rhs : EinExpr α) (m : Mem α)
    (h : EinInput lhs rhs) (ha : einAssert lhs rhs = true) (lb : Int) (ld : List SDim)
    (hl : lhs.op = .arr (some lb) ld) :
    ∃ m', einReduce (fun _ y => y) lhs rhs m = some m' ∧
      (∀ r, InBox (ld.map SDim.val) r → ∀ i : Index,
        (∀ j, LoopIndex (lhs :: leaves rhs) j ∧ pick lhs.is j = r ↔ j = i) →
        m' (lb + offsetOf (ld.map SDim.val) r) = valueAt m i rhs) ∧
      ∀ a, ¬ OpElement lhs a → m' a = m a := by
  obtain ⟨m', hm', h1, h2⟩ := C41_fold (fun _ y => y) lhs rhs m h ha lb ld hl
  refine ⟨m', hm', ?_, h2⟩
  intro r hr i hi
  obtain ⟨l', hp, hmem', e⟩ := h1 r hr
  have hperm := pairwise_perm hp (l := [i]) (by simp) fun j => by rw [hmem', hi]; simp
  rw [e, List.perm_singleton.1 hperm]
  rfl


end Nda
