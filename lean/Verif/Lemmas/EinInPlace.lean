import Verif.Spec.EinInPlace
import Verif.Lemmas.EinAlgebra
/-
Lemmas on Einstein reductions in place (C94).
-/
namespace Nda
open Spec
variable {α : Type}

/-- The value of an expression depends only on the elements that its operands refer to. -/
theorem valueAt_refers {e : EinExpr α} {m m' : Mem α} {i : Index}
    (hr : ∀ o ∈ leaves e, OpInRange o i) (hb : ∀ o ∈ leaves e, OpBacked o)
    (h : ∀ o ∈ leaves e, ∀ a, Refers o i a → m' a = m a) : valueAt m' i e = valueAt m i e := by
  induction e with
  | op o =>
    have hr' := hr o (by simp [leaves])
    have hb' := hb o (by simp [leaves])
    have h' := h o (by simp [leaves])
    obtain ⟨op, is⟩ := o
    cases op with
    | fn f => rfl
    | arr base dims =>
      simp only [OpInRange] at hr'
      simp only [OpBacked] at hb'
      cases base with
      | none => exact absurd hr' (hb' rfl _)
      | some b => exact h' _ ⟨b, rfl, rfl⟩
  | unary f e ih => simp only [valueAt]; rw [ih hr hb h]
  | binary f a b iha ihb =>
    simp only [valueAt, leaves, List.mem_append] at *
    rw [iha (fun o h => hr o (Or.inl h)) (fun o h => hb o (Or.inl h)) (fun o ho => h o (Or.inl ho)),
      ihb (fun o h => hr o (Or.inr h)) (fun o h => hb o (Or.inr h)) (fun o ho => h o (Or.inr ho))]

/-- Running the steps of a reduction, if the value of each depends only on cells that no earlier step wrote. -/
theorem foldlM_step_before {lhs : EinOp α} {rhs : EinExpr α} (f : α → α → α) {A : Index → Int} {v : Index → α} {m0 : Mem α}
    (l : List Index) (hA : ∀ i ∈ l, lhs.address i = some (A i))
    (hv : ∀ done i todo, l = done ++ i :: todo → ∀ m : Mem α, (∀ a, (∀ j ∈ done, A j ≠ a) → m a = m0 a) →
      rhs.eval m i = some (v i)) :
    l.foldlM (einStep f lhs rhs) m0 = some (updates f A v m0 l) := by
  suffices H : ∀ (done todo : List Index), l = done ++ todo →
      todo.foldlM (einStep f lhs rhs) (updates f A v m0 done) = some (updates f A v m0 l) from
    H [] l rfl
  intro done todo
  induction todo generalizing done with
  | nil => intro h; rw [h, List.append_nil]; rfl
  | cons i todo ih =>
    intro h
    rw [List.foldlM_cons]
    have hi : i ∈ l := by rw [h]; simp
    have hframe : ∀ a, (∀ j ∈ done, A j ≠ a) → updates f A v m0 done a = m0 a := by
      intro a ha
      rw [updates_apply, show (done.filter fun i => A i = a) = [] from by
        rw [List.filter_eq_nil_iff]
        intro j hj
        simpa using ha j hj]
      rfl
    have e : einStep f lhs rhs (updates f A v m0 done) i = some (updates f A v m0 (done ++ [i])) := by
      unfold einStep
      rw [hv done i todo h _ hframe, hA i hi]
      unfold updates
      rw [List.foldl_append]
      rfl
    rw [e]
    exact ih (done ++ [i]) (by rw [h]; simp)

theorem Spec.EinOperands.mem_loop {lhs : EinOp α} {rhs : EinExpr α} (h : EinOperands lhs rhs)
    (ha : einAssert lhs rhs = true) (i : Index) :
    i ∈ boxList (einLoopShape lhs rhs) ↔ LoopIndex (lhs :: leaves rhs) i :=
  mem_boxList.trans (loopIndex_iff h.typed h.consistent ha i)

theorem refers_eq {lb : Int} {ld : List SDim} {is : List Nat} {i : Index} {a : Int} :
    Refers (⟨.arr (some lb) ld, is⟩ : EinOp α) i a ↔ a = lb + offsetOf (ld.map SDim.val) (pick is i) := by
  constructor
  · rintro ⟨b, e, h⟩
    cases e
    exact h
  · intro h
    exact ⟨lb, rfl, h⟩

theorem einReduce_in_place (f : α → α → α) {lhs : EinOp α} {rhs : EinExpr α} (m : Mem α)
    (h : EinOperands lhs rhs) (hn : NotReadAfter lhs rhs) (ha : einAssert lhs rhs = true) {lb : Int} {ld : List SDim}
    (hl : lhs.op = .arr (some lb) ld) :
    einReduce f lhs rhs m = some (updates f (fun i => lb + offsetOf (ld.map SDim.val) (pick lhs.is i))
      (fun i => valueAt m i rhs) m (boxList (einLoopShape lhs rhs))) := by
  obtain ⟨op, is⟩ := lhs
  simp only at hl
  subst hl
  set lhs : EinOp α := ⟨.arr (some lb) ld, is⟩ with hlhs
  have hmem := h.mem_loop ha
  have hr : ∀ i ∈ boxList (einLoopShape lhs rhs), ∀ o ∈ lhs :: leaves rhs, OpInRange o i :=
    fun i hi o ho => ((hmem i).1 hi).2.1 o ho
  have hp := boxList_pairwise (einLoopShape lhs rhs)
  have hfold := foldlM_step_before (lhs := lhs) (rhs := rhs) f (m0 := m)
    (A := fun i => lb + offsetOf (ld.map SDim.val) (pick is i)) (v := fun i => valueAt m i rhs)
    (boxList (einLoopShape lhs rhs))
    (by
      intro i _
      simp only [hlhs, EinOp.address, Option.map_some]
      rw [flatOffset_eq]; rfl)
    (by
      intro done i todo hsplit m' hm'
      have hi : i ∈ boxList (einLoopShape lhs rhs) := by rw [hsplit]; simp
      rw [eval_eq (fun o ho => hr i hi o (by simp [ho])) (fun o ho => h.backed o (by simp [ho]))]
      congr 1
      refine valueAt_refers (fun o ho => hr i hi o (by simp [ho])) (fun o ho => h.backed o (by simp [ho])) ?_
      intro o ho a hoa
      apply hm'
      rintro j hj e
      have hjl : j ∈ boxList (einLoopShape lhs rhs) := by rw [hsplit]; simp [hj]
      have hlt : ColexLt j i := by
        rw [hsplit, List.pairwise_append] at hp
        exact hp.2.2 j hj i (by simp)
      exact hn o ho i j ((hmem i).1 hi) ((hmem j).1 hjl) hlt a (refers_eq.2 e.symm) hoa)
  unfold einReduce
  rw [forEachIndex_eq (einLoopShape_nonNeg h.typed h.nonNeg)]
  exact hfold

/-- A loop index is determined by the element of the result, if nothing is summed. -/
theorem pick_unique {lhs : EinOp α} {rhs : EinExpr α} (hs : NoSum lhs rhs) {i j : Index}
    (hi : LoopIndex (lhs :: leaves rhs) i) (hj : LoopIndex (lhs :: leaves rhs) j) (e : pick lhs.is i = pick lhs.is j) :
    i = j := by
  refine List.ext_getElem? fun k => ?_
  by_cases hk : k < loopRank (lhs :: leaves rhs)
  · by_cases hu : k ∈ lhs.is
    · obtain ⟨p, hp⟩ := List.mem_iff_getElem?.1 hu
      have h1 := pick_get (i := i) hp
      have h2 := pick_get (i := j) hp
      rw [e, h2] at h1
      have h3 : i[k]? = some (i.getD k 0) := by
        rw [List.getElem?_eq_getElem (by rw [hi.1]; exact hk), List.getD_eq_getElem?_getD,
          List.getElem?_eq_getElem (by rw [hi.1]; exact hk)]
        rfl
      have h4 : j[k]? = some (j.getD k 0) := by
        rw [List.getElem?_eq_getElem (by rw [hj.1]; exact hk), List.getD_eq_getElem?_getD,
          List.getElem?_eq_getElem (by rw [hj.1]; exact hk)]
        rfl
      rw [h3, h4]
      exact h1.symm
    · have hno : ∀ o ∈ lhs :: leaves rhs, ¬ OpUses o k := by
        intro o ho hk'
        rcases List.mem_cons.1 ho with rfl | ho
        · exact hu (opUses_mem hk')
        · exact hu (hs o ho k hk')
      rw [hi.2.2 k hk hno, hj.2.2 k hk hno]
  · rw [List.getElem?_eq_none (by rw [hi.1]; omega), List.getElem?_eq_none (by rw [hj.1]; omega)]

/-! ### Copies, as a function of addresses -/

/-- Which cell each cell has its contents from, after cells `B i` were copied to cells `A i`, in order. -/
def copied (A B : Index → Int) (l : List Index) : Int → Int :=
  l.foldl (fun R i x => if x = A i then R (B i) else R x) id

theorem copied_append (A B : Index → Int) (l : List Index) (i : Index) (x : Int) :
    copied A B (l ++ [i]) x = if x = A i then copied A B l (B i) else copied A B l x := by
  unfold copied
  rw [List.foldl_append]
  rfl

theorem foldlM_copied {lhs : EinOp α} {rhs : EinExpr α} {A B : Index → Int} {m0 : Mem α} (l : List Index)
    (hA : ∀ i ∈ l, lhs.address i = some (A i)) (hB : ∀ i ∈ l, ∀ m : Mem α, rhs.eval m i = some (m (B i))) :
    l.foldlM (einStep (fun _ y => y) lhs rhs) m0 = some fun x => m0 (copied A B l x) := by
  suffices H : ∀ (done todo : List Index), l = done ++ todo →
      todo.foldlM (einStep (fun _ y => y) lhs rhs) (fun x => m0 (copied A B done x)) =
        some fun x => m0 (copied A B l x) from H [] l rfl
  intro done todo
  induction todo generalizing done with
  | nil => intro h; rw [h, List.append_nil]; rfl
  | cons i todo ih =>
    intro h
    have hi : i ∈ l := by rw [h]; simp
    rw [List.foldlM_cons]
    have e : einStep (fun _ y => y) lhs rhs (fun x => m0 (copied A B done x)) i =
        some fun x => m0 (copied A B (done ++ [i]) x) := by
      unfold einStep
      rw [hA i hi, hB i hi]
      simp only [Option.bind_eq_bind, Option.bind_some, Option.pure_def, Option.some.injEq]
      funext x
      rw [copied_append]
      unfold Mem.set
      split <;> rfl
    rw [e]
    exact ih (done ++ [i]) (by rw [h]; simp)

/-- A cell that is not written again keeps its contents. -/
theorem copied_keep (A B : Index → Int) (l t : List Index) (x : Int) (h : ∀ j ∈ t, A j ≠ x) :
    copied A B (l ++ t) x = copied A B l x := by
  induction t generalizing l with
  | nil => rw [List.append_nil]
  | cons j t ih =>
    rw [show l ++ j :: t = (l ++ [j]) ++ t by simp, ih _ (fun k hk => h k (by simp [hk])), copied_append,
      if_neg (fun e => h j (by simp) e.symm)]

/-- Every cell gets the original contents exactly if cells that are read after they were written were copied to
themselves. -/
theorem copied_iff (A B : Index → Int) (l : List Index) (lt : Index → Index → Prop) (hp : l.Pairwise lt)
    (hlt : ∀ i ∈ l, ∀ j ∈ l, lt j i → lt i j → False) (hA : ∀ i ∈ l, ∀ j ∈ l, A i = A j → i = j) :
    (∀ i ∈ l, copied A B l (A i) = B i) ↔ ∀ i ∈ l, ∀ j ∈ l, lt j i → A j = B i → A j = B j := by
  have nodup : ∀ {done : List Index} {i : Index} {todo : List Index}, l = done ++ i :: todo →
      (∀ j ∈ done, lt j i) ∧ ∀ j ∈ todo, A j ≠ A i := by
    intro done i todo h
    rw [h, List.pairwise_append, List.pairwise_cons] at hp
    have h1 : ∀ j ∈ done, lt j i := fun j hj => hp.2.2 j hj i (by simp)
    refine ⟨h1, fun j hj e => ?_⟩
    have hij := hp.2.1.1 j hj
    have := hA j (by rw [h]; simp [hj]) i (by rw [h]; simp) e
    subst this
    exact hlt j (by rw [h]; simp) j (by rw [h]; simp) hij hij
  have final : ∀ {done : List Index} {i : Index} {todo : List Index}, l = done ++ i :: todo →
      copied A B l (A i) = copied A B done (B i) := by
    intro done i todo h
    rw [h, show done ++ i :: todo = (done ++ [i]) ++ todo by simp, copied_keep _ _ _ _ _ (nodup h).2, copied_append,
      if_pos rfl]
  constructor
  · intro h i hi j hj hji e
    obtain ⟨done, todo, hs⟩ := List.append_of_mem hi
    have hjd : j ∈ done := by
      rw [hs, List.mem_append, List.mem_cons] at hj
      rcases hj with hj | rfl | hj
      · exact hj
      · exact absurd hji fun h' => hlt j hi j hi h' h'
      · exfalso
        rw [hs, List.pairwise_append, List.pairwise_cons] at hp
        exact hlt i hi j (by rw [hs]; simp [hj]) hji (hp.2.1.1 j hj)
    obtain ⟨d1, d2, hd⟩ := List.append_of_mem hjd
    have h1 : copied A B done (A j) = B j := by
      have hfull : l = d1 ++ j :: (d2 ++ i :: todo) := by rw [hs, hd]; simp
      rw [hd, show d1 ++ j :: d2 = (d1 ++ [j]) ++ d2 by simp,
        copied_keep _ _ _ _ _ (fun k hk => (nodup hfull).2 k (by simp [hk])), copied_append, if_pos rfl, ← final hfull]
      exact h j (by rw [hfull]; simp)
    have h2 := h i hi
    rw [final hs, ← e, h1] at h2
    exact h2.symm
  · intro h
    suffices H : ∀ (done todo : List Index), l = done ++ todo → ∀ i ∈ done, copied A B done (A i) = B i from
      H l [] (by simp)
    intro done
    induction done using List.reverseRecOn with
    | nil => intro _ _ i hi; simp at hi
    | append_singleton done i ih =>
      intro todo hs k hk
      have hs' : l = done ++ i :: todo := by rw [hs]; simp
      have ih' := ih (i :: todo) hs'
      have hbi : copied A B done (B i) = B i := by
        by_cases he : ∃ j ∈ done, A j = B i
        · obtain ⟨j, hj, e⟩ := he
          have h1 := h i (by rw [hs']; simp) j (by rw [hs']; simp [hj]) ((nodup hs').1 j hj) e
          rw [← e, ih' j hj, ← h1]
        · push Not at he
          have := copied_keep A B [] done (B i) he
          rw [List.nil_append] at this
          exact this
      rw [List.mem_append, List.mem_singleton] at hk
      rw [copied_append]
      by_cases hke : A k = A i
      · rw [if_pos hke, hbi]
        have := hA k (by rcases hk with hk | rfl <;> simp_all) i (by rw [hs']; simp) hke
        rw [this]
      · rw [if_neg hke]
        rcases hk with hk | rfl
        · exact ih' k hk
        · exact absurd rfl hke

end Nda
