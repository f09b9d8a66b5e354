import Verif.Lemmas.EinAlgebra
import Verif.Props.EinExamples
import Mathlib.Algebra.Order.Group.Int
/-
C65: which changes of an Einstein reduction do not change its result.
-/
namespace Nda
open Spec
variable {α : Type}

/-- C65: the numbers of the loop indices do not matter for an operator whose updates commute (`+=`, `-=`, `*=`, and
`min`, `max`): an injective renaming gives the same memory. -/
theorem C65_rename (f : α → α → α) [RightCommutative f] (σ : Nat → Nat) (hσ : σ.Injective) (lhs : EinOp α)
    (rhs : EinExpr α) (m : Mem α) (h : EinInput lhs rhs) (ha : einAssert lhs rhs = true) (lb : Int) (ld : List SDim)
    (hl : lhs.op = .arr (some lb) ld) :
    einAssert (renameOp σ lhs) (renameExpr σ rhs) = true ∧
    ∃ m', einReduce f lhs rhs m = some m' ∧ einReduce f (renameOp σ lhs) (renameExpr σ rhs) m = some m' := by
  have h' := einInput_rename hσ h
  have ha' := einAssert_rename hσ h.typed ha
  refine ⟨ha', _, einReduce_updates f m h ha hl, ?_⟩
  rw [einReduce_updates f m h' ha' (ld := ld) (lb := lb) hl]
  congr 1
  set ops := lhs :: leaves rhs with hops
  set ops' := renameOp σ lhs :: leaves (renameExpr σ rhs) with hops'
  have e : ops' = ops.map (renameOp σ) := rename_cons σ lhs rhs
  set G := renameIndex σ (loopRank (ops.map (renameOp σ))) with hG
  have hp : (boxList (einLoopShape (renameOp σ lhs) (renameExpr σ rhs))).Perm
      ((boxList (einLoopShape lhs rhs)).map G) := by
    refine (List.perm_ext_iff_of_nodup (boxList_nodup _) ?_).2 ?_
    · refine (boxList_nodup _).map_on ?_
      intro i hi j hj hij
      rw [← unrename_rename hσ ((mem_loop h ha i).1 hi), ← unrename_rename hσ ((mem_loop h ha j).1 hj)]
      exact congrArg _ hij
    · intro i
      rw [mem_loop h' ha', ← hops', e, List.mem_map]
      constructor
      · intro hi
        exact ⟨_, (mem_loop h ha _).2 (loopIndex_unrename hσ hi), rename_unrename hσ hi⟩
      · rintro ⟨j, hj, rfl⟩
        exact loopIndex_rename hσ ((mem_loop h ha j).1 hj)
  funext a
  rw [updates_apply, updates_apply]
  have hp2 := ((hp.filter fun i => lb + offsetOf (ld.map SDim.val) (pick (renameOp σ lhs).is i) = a).map
    fun i => valueAt m i (renameExpr σ rhs))
  rw [hp2.foldl_eq, List.filter_map, List.map_map]
  congr 1
  rw [List.filter_congr (q := fun i => decide (lb + offsetOf (ld.map SDim.val) (pick lhs.is i) = a))]
  · refine List.map_congr_left fun i _ => ?_
    exact valueAt_rename hσ m rhs (fun o ho => by simp [hops, ho]) i
  · intro i _
    simp only [Function.comp, decide_eq_decide]
    rw [hG, pick_rename hσ (by simp [hops] : lhs ∈ ops)]

/-- C65: an expression may be replaced by another one with the same operands and the same value: terms may be
exchanged, factors multiplied out and so on. -/
theorem C65_rewrite (f : α → α → α) (lhs : EinOp α) (rhs rhs' : EinExpr α) (m : Mem α) (h : EinInput lhs rhs)
    (ha : einAssert lhs rhs = true) (lb : Int) (ld : List SDim) (hl : lhs.op = .arr (some lb) ld)
    (ho : ∀ o, o ∈ leaves rhs ↔ o ∈ leaves rhs') (hv : ∀ (m : Mem α) i, valueAt m i rhs = valueAt m i rhs') :
    einAssert lhs rhs' = true ∧ ∃ m', einReduce f lhs rhs m = some m' ∧ einReduce f lhs rhs' m = some m' := by
  have h' := einInput_sub h (fun o h => (ho o).2 h)
  have ha' := einAssert_sub ha (fun o h => (ho o).2 h)
  refine ⟨ha', _, einReduce_updates f m h ha hl, ?_⟩
  rw [← einReduce_updates f m h ha hl]
  refine (einReduce_same f m h ha h' ha' hl hl ?_ (fun _ _ => rfl) (fun i _ => hv m i)).symm
  have hr : loopRank (lhs :: leaves rhs) = loopRank (lhs :: leaves rhs') :=
    loopRank_eq_of fun k => by simp only [List.mem_cons, exists_eq_or_imp, ho]
  intro i
  unfold LoopIndex
  rw [hr]
  simp only [List.mem_cons, ho]

/-- C65: operands and the result may be transposed together with their loop indices. -/
theorem C65_transpose (f : α → α → α) (lhs lhs' : EinOp α) (rhs rhs' : EinExpr α) (m : Mem α) (h : EinInput lhs rhs)
    (ha : einAssert lhs rhs = true) (ha' : einAssert lhs' rhs' = true) (lb : Int) (ld : List SDim)
    (hl : lhs.op = .arr (some lb) ld) (h1 : lhs' = lhs ∨ ∃ P, TransposedOp P lhs lhs')
    (h2 : SameButTransposed rhs rhs') :
    ∃ m', einReduce f lhs rhs m = some m' ∧ einReduce f lhs' rhs' m = some m' := by
  have hs : OpSame lhs lhs' := by
    rcases h1 with rfl | ⟨P, hP⟩
    · exact OpSame.refl _
    · exact opSame_transposed hP
  have hf := sameButTransposed_leaves h2
  obtain ⟨ld', hl'⟩ : ∃ ld', lhs'.op = .arr (some lb) ld' := by
    rcases h1 with rfl | ⟨P, _, base, dims, ho, _, rfl⟩
    · exact ⟨ld, hl⟩
    · rw [hl] at ho
      simp only [EinSrc.arr.injEq] at ho
      exact ⟨_, by rw [ho.1]⟩
  refine ⟨_, einReduce_updates f m h ha hl, ?_⟩
  rw [← einReduce_updates f m h ha hl]
  refine (einReduce_same f m h ha (einInput_same hs hf h) ha' hl hl' (loopIndex_same (.cons hs hf)) ?_
    (fun i _ => (sameButTransposed_value h2 m i).symm)).symm
  intro i _
  have hA := hs.address i
  obtain ⟨op, is⟩ := lhs
  obtain ⟨op', is'⟩ := lhs'
  simp only at hl hl'
  subst hl hl'
  simpa only [EinOp.address, args_eq_pick, flatOffset_eq, values, Option.map_some, Option.some.injEq] using hA.symm

/-- C65: `ein_reduce(ein<Is...>(r) = g(ein<Is...>(r), e))` is the reduction of `e` with `g`: assigning
`r = r + e` is `r += e`, and `r = max(r, e)` is the maximum. -/
theorem C65_self (g : α → α → α) (lhs : EinOp α) (rhs : EinExpr α) (m : Mem α) (base : Option Int) (ld : List SDim)
    (hl : lhs.op = .arr base ld) (ht : OpTyped lhs) :
    einReduce (fun _ y => y) lhs (.binary g (.op lhs) rhs) m = einReduce g lhs rhs m ∧
      einAssert lhs (.binary g (.op lhs) rhs) = einAssert lhs rhs := by
  refine ⟨?_, einAssert_self ht⟩
  unfold einReduce
  rw [einLoopShape_self]
  congr 1
  funext tr
  congr 1
  funext m i
  exact einStep_self hl g rhs m i

theorem foldl_max [LinearOrder α] (v : Index → α) (l : List Index) (x : α) :
    x ≤ l.foldl (fun x i => max x (v i)) x ∧ (∀ i ∈ l, v i ≤ l.foldl (fun x i => max x (v i)) x) ∧
      (l.foldl (fun x i => max x (v i)) x = x ∨ ∃ i ∈ l, l.foldl (fun x i => max x (v i)) x = v i) := by
  induction l generalizing x with
  | nil => simp
  | cons i l ih =>
    obtain ⟨h1, h2, h3⟩ := ih (max x (v i))
    rw [List.foldl_cons]
    refine ⟨(le_max_left _ _).trans h1, ?_, ?_⟩
    · intro j hj
      rcases List.mem_cons.1 hj with rfl | hj
      · exact (le_max_right _ _).trans h1
      · exact h2 j hj
    · rcases h3 with h3 | ⟨j, hj, h3⟩
      · rw [h3]
        rcases max_choice x (v i) with h | h
        · exact Or.inl h
        · exact Or.inr ⟨i, by simp, h⟩
      · exact Or.inr ⟨j, by simp [hj], h3⟩

/-- C65: `ein_reduce(ein<Is...>(r) = max(ein<Is...>(r), e))` leaves in each element of `r` the largest of its old
value and the values of `e` at the loop indices that address it. -/
theorem C65_max [LinearOrder α] (lhs : EinOp α) (rhs : EinExpr α) (m : Mem α)
    (h : EinInput lhs rhs) (ha : einAssert lhs rhs = true) (lb : Int) (ld : List SDim)
    (hl : lhs.op = .arr (some lb) ld) :
    ∃ m', einReduce (fun _ y => y) lhs (.binary max (.op lhs) rhs) m = some m' ∧
      (∀ r, InBox (ld.map SDim.val) r →
        let a := lb + offsetOf (ld.map SDim.val) r
        m a ≤ m' a ∧ (∀ i, LoopIndex (lhs :: leaves rhs) i → pick lhs.is i = r → valueAt m i rhs ≤ m' a) ∧
          (m' a = m a ∨ ∃ i, LoopIndex (lhs :: leaves rhs) i ∧ pick lhs.is i = r ∧ m' a = valueAt m i rhs)) ∧
      ∀ a, ¬ OpElement lhs a → m' a = m a := by
  rw [(C65_self max lhs rhs m _ ld hl (h.typed lhs (by simp))).1]
  obtain ⟨m', hm', h1, h2⟩ := C41_fold max lhs rhs m h ha lb ld hl
  refine ⟨m', hm', ?_, h2⟩
  intro r hr
  obtain ⟨l, _, hmem, e⟩ := h1 r hr
  dsimp only
  obtain ⟨g1, g2, g3⟩ := foldl_max (fun i => valueAt m i rhs) l (m (lb + offsetOf (ld.map SDim.val) r))
  rw [e]
  refine ⟨g1, fun i hi hp => g2 i ((hmem i).2 ⟨hi, hp⟩), ?_⟩
  rcases g3 with g3 | ⟨i, hi, g3⟩
  · exact Or.inl g3
  · exact Or.inr ⟨i, ((hmem i).1 hi).1, ((hmem i).1 hi).2, g3⟩

/-- C65: one `ein_reduce` of a sum is two: `r += a + b` is `r += a` and then `r += b`, if `a` and `b` run over the
same loop indices. -/
theorem C65_add [AddCommMonoid α] (lhs : EinOp α) (a b : EinExpr α) (m : Mem α)
    (h : EinInput lhs (.binary (· + ·) a b)) (ha : einAssert lhs (.binary (· + ·) a b) = true) (lb : Int)
    (ld : List SDim) (hl : lhs.op = .arr (some lb) ld)
    (h1 : ∀ i, LoopIndex (lhs :: leaves a) i ↔ LoopIndex (lhs :: leaves (.binary (· + ·) a b)) i)
    (h2 : ∀ i, LoopIndex (lhs :: leaves b) i ↔ LoopIndex (lhs :: leaves (.binary (· + ·) a b)) i) :
    ∃ m1 m2, einReduce (· + ·) lhs a m = some m1 ∧ einReduce (· + ·) lhs b m1 = some m2 ∧
      einReduce (· + ·) lhs (.binary (· + ·) a b) m = some m2 := by
  have sa : ∀ o ∈ leaves a, o ∈ leaves (.binary (· + ·) a b) := fun o ho => by simp [leaves, ho]
  have sb : ∀ o ∈ leaves b, o ∈ leaves (.binary (· + ·) a b) := fun o ho => by simp [leaves, ho]
  have ea : boxList (einLoopShape lhs a) = boxList (einLoopShape lhs (.binary (· + ·) a b)) :=
    loopIndices_unique (boxList_pairwise _) (boxList_pairwise _) fun i => by
      rw [mem_loop (einInput_sub h sa) (einAssert_sub ha sa), mem_loop h ha, h1]
  have eb : boxList (einLoopShape lhs b) = boxList (einLoopShape lhs (.binary (· + ·) a b)) :=
    loopIndices_unique (boxList_pairwise _) (boxList_pairwise _) fun i => by
      rw [mem_loop (einInput_sub h sb) (einAssert_sub ha sb), mem_loop h ha, h2]
  refine ⟨_, _, einReduce_updates _ m (einInput_sub h sa) (einAssert_sub ha sa) hl,
    einReduce_updates _ _ (einInput_sub h sb) (einAssert_sub ha sb) hl, ?_⟩
  rw [einReduce_updates _ m h ha hl, ea, eb]
  congr 1
  set A := fun i => lb + offsetOf (ld.map SDim.val) (pick lhs.is i) with hA
  set l := boxList (einLoopShape lhs (.binary (· + ·) a b)) with hlist
  have hinr : ∀ i ∈ l, ∀ o ∈ lhs :: leaves (.binary (· + ·) a b), OpInRange o i :=
    fun i hi => ((mem_loop h ha i).1 hi).2.1
  have hvb : ∀ i ∈ l, valueAt (updates (· + ·) A (fun i => valueAt m i a) m l) i b = valueAt m i b := by
    intro i hi
    refine valueAt_congr (fun o ho => hinr i hi o (by simp [leaves, ho]))
      (fun o ho => h.backed o (by simp [leaves, ho])) ?_
    intro o ho p hp
    rw [updates_apply, List.filter_eq_nil_iff.2]
    · rfl
    · intro j hj
      simp only [decide_eq_true_eq]
      rintro rfl
      refine h.separate o (sb o ho) _ ?_ hp
      have hj' := hinr j hj lhs (by simp)
      obtain ⟨op, is⟩ := lhs
      simp only at hl
      subst hl
      exact ⟨lb, _, rfl, hj', rfl⟩
  rw [updates_congr _ (A' := A) (v' := fun i => valueAt m i b) _ (fun _ _ => rfl) hvb]
  funext p
  rw [updates_apply, updates_apply, updates_apply]
  simp only [List.foldl_map, valueAt]
  rw [foldl_add_eq (fun i => valueAt m i a + valueAt m i b), foldl_add_eq (fun i => valueAt m i b),
    foldl_add_eq (fun i => valueAt m i a), add_assoc, ← List.sum_map_add]

/-- C65: `r -= e` is `r += -e`. -/
theorem C65_neg [AddGroup α] (lhs : EinOp α) (e : EinExpr α) (m : Mem α) :
    einReduce (· - ·) lhs e m = einReduce (· + ·) lhs (.unary (- ·) e) m ∧
      einAssert lhs e = einAssert lhs (.unary (- ·) e) := by
  refine ⟨?_, rfl⟩
  show _ = ((einLoopShape lhs e).forEachIndex >>= _)
  unfold einReduce
  congr 1
  funext tr
  congr 1
  funext m i
  unfold einStep
  simp only [EinExpr.eval]
  cases e.eval m i with
  | none => rfl
  | some y =>
    cases lhs.address i with
    | none => rfl
    | some p => simp [sub_eq_add_neg]

/-- C65: `r -= e` after `r += e` restores all of the memory. -/
theorem C65_undo [AddCommGroup α] (lhs : EinOp α) (e : EinExpr α) (m : Mem α) (h : EinInput lhs e)
    (ha : einAssert lhs e = true) (lb : Int) (ld : List SDim) (hl : lhs.op = .arr (some lb) ld) :
    ∃ m1, einReduce (· + ·) lhs e m = some m1 ∧ einReduce (· - ·) lhs e m1 = some m := by
  refine ⟨_, einReduce_updates _ m h ha hl, ?_⟩
  rw [einReduce_updates _ _ h ha hl]
  congr 1
  set A := fun i => lb + offsetOf (ld.map SDim.val) (pick lhs.is i) with hA
  set l := boxList (einLoopShape lhs e) with hlist
  have hinr : ∀ i ∈ l, ∀ o ∈ lhs :: leaves e, OpInRange o i := fun i hi => ((mem_loop h ha i).1 hi).2.1
  have hv : ∀ i ∈ l, valueAt (updates (· + ·) A (fun i => valueAt m i e) m l) i e = valueAt m i e := by
    intro i hi
    refine valueAt_congr (fun o ho => hinr i hi o (by simp [ho])) (fun o ho => h.backed o (by simp [ho])) ?_
    intro o ho p hp
    rw [updates_apply, List.filter_eq_nil_iff.2]
    · rfl
    · intro j hj
      simp only [decide_eq_true_eq]
      rintro rfl
      refine h.separate o ho _ ?_ hp
      have hj' := hinr j hj lhs (by simp)
      obtain ⟨op, is⟩ := lhs
      simp only at hl
      subst hl
      exact ⟨lb, _, rfl, hj', rfl⟩
  rw [updates_congr _ (A' := A) (v' := fun i => valueAt m i e) _ (fun _ _ => rfl) hv]
  funext p
  rw [updates_apply, updates_apply]
  simp only [List.foldl_map]
  rw [foldl_sub_eq (fun i => valueAt m i e), foldl_add_eq (fun i => valueAt m i e)]
  abel

/-- C65: `tr(AB) = tr(BA)`: `ein_reduce(ein<>(t) += ein<i, j>(A) * ein<j, i>(B))` and the same with `A` and `B`
exchanged. -/
theorem C65_trace_product [NonUnitalCommSemiring α] (i j : Nat) (c a b : Int) (a0 a1 b0 b1 : SDim) (m : Mem α)
    (h : EinInput (einScal c) (.binary (· * ·) (.op (einMat a a0 a1 i j)) (.op (einMat b b0 b1 j i)) : EinExpr α))
    (ha : einAssert (einScal c) (.binary (· * ·) (.op (einMat a a0 a1 i j)) (.op (einMat b b0 b1 j i)) : EinExpr α) =
      true) :
    ∃ m', einReduce (· + ·) (einScal c) (.binary (· * ·) (.op (einMat a a0 a1 i j)) (.op (einMat b b0 b1 j i))) m =
        some m' ∧
      einReduce (· + ·) (einScal c) (.binary (· * ·) (.op (einMat b b0 b1 i j)) (.op (einMat a a0 a1 j i))) m =
        some m' := by
  haveI : RightCommutative (fun x y : α => x + y) := ⟨fun x y z => add_right_comm x y z⟩
  obtain ⟨ha1, m1, e1, e2⟩ := C65_rename (· + ·) (Equiv.swap i j) (Equiv.swap i j).injective _ _ m h ha c [] rfl
  refine ⟨m1, e1, ?_⟩
  obtain ⟨_, m2, e3, e4⟩ := C65_rewrite (· + ·) _ _
    (.binary (· * ·) (.op (einMat b b0 b1 i j)) (.op (einMat a a0 a1 j i))) m
    (einInput_rename (Equiv.swap i j).injective h) ha1 c [] rfl
    (by
      intro o
      simp only [renameExpr, renameOp, einMat, leaves, List.map_cons, List.map_nil, List.cons_append, List.nil_append,
        List.mem_cons, List.not_mem_nil, or_false, Equiv.swap_apply_left, Equiv.swap_apply_right]
      exact or_comm)
    (by
      intro m k
      simp only [renameExpr, renameOp, einMat, valueAt, List.map_cons, List.map_nil, Equiv.swap_apply_left,
        Equiv.swap_apply_right]
      exact mul_comm _ _)
  rw [e2, Option.some.injEq] at e3
  subst e3
  exact e4

/-! ### Where this ends, and examples -/

/-- C65, negative part: `a` and `b` must run over the same loop indices.  `ein<0>(x) += ein<0, 1>(A) + ein<0>(b)`
adds `b` once for each column of `A`.  (`A` is 1×2 at 0, `b` at 2, `x` at 3.) -/
theorem C65_add_counterexample :
    let A : EinExpr Int := .op ⟨.arr (some 0) [⟨anyDim, ⟨0, 1, 1⟩⟩, ⟨anyDim, ⟨0, 2, 1⟩⟩], [0, 1]⟩
    let b : EinExpr Int := .op ⟨.arr (some 2) [⟨anyDim, ⟨0, 1, 1⟩⟩], [0]⟩
    let x : EinOp Int := ⟨.arr (some 3) [⟨anyDim, ⟨0, 1, 1⟩⟩], [0]⟩
    let m : Mem Int := fun a => if a = 2 then 1 else 0
    ∃ m1 m2 m3, einReduce (· + ·) x A m = some m1 ∧ einReduce (· + ·) x b m1 = some m2 ∧ m2 3 = 1 ∧
      einReduce (· + ·) x (.binary (· + ·) A b) m = some m3 ∧ m3 3 = 2 := by
  intro A b x m
  have n : ∀ s : Shape, s.all (fun d => decide (0 ≤ d.extent)) = true → NonNeg s := by
    intro s hs d hd
    exact of_decide_eq_true (List.all_eq_true.1 hs d hd)
  unfold einReduce
  rw [forEachIndex_eq (n _ (by decide +kernel)), forEachIndex_eq (n _ (by decide +kernel)),
    forEachIndex_eq (n _ (by decide +kernel))]
  exact ⟨_, _, _, rfl, rfl, by decide +kernel, rfl, by decide +kernel⟩

/-- C65, negative part: if the updates do not commute, the numbers of the loop indices decide the order and with it
the result.  `ein<>(r) = 2 * ein<>(r) + ein<0, 1>(A)` and the same with `ein<1, 0>(A)`, `A` the matrix with elements
0, 1, 2, 3 in memory. -/
theorem C65_order_counterexample :
    let A (i j : Nat) : EinExpr Int := .op ⟨.arr (some 0) [⟨anyDim, ⟨0, 2, 1⟩⟩, ⟨anyDim, ⟨0, 2, 2⟩⟩], [i, j]⟩
    let r : EinOp Int := ⟨.arr (some 4) [], []⟩
    let m : Mem Int := fun a => if a < 4 then a else 0
    ∃ m1 m2, einReduce (fun _ y => y) r (.binary (fun x y => 2 * x + y) (.op r) (A 0 1)) m = some m1 ∧
      einReduce (fun _ y => y) r (.binary (fun x y => 2 * x + y) (.op r) (A 1 0)) m = some m2 ∧
      m1 4 = 11 ∧ m2 4 = 13 := by
  intro A r m
  have n : ∀ s : Shape, s.all (fun d => decide (0 ≤ d.extent)) = true → NonNeg s := by
    intro s hs d hd
    exact of_decide_eq_true (List.all_eq_true.1 hs d hd)
  unfold einReduce
  rw [forEachIndex_eq (n _ (by decide +kernel)), forEachIndex_eq (n _ (by decide +kernel))]
  exact ⟨_, _, rfl, rfl, by decide +kernel, by decide +kernel⟩

/-- `ein<5, 2>(transpose<1, 0>(A))` is a transposed `ein<2, 5>(A)`. -/
example : TransposedOp [1, 0] (einMat 100 ⟨anyDim, ⟨0, 3, 1⟩⟩ ⟨anyDim, ⟨0, 4, 3⟩⟩ 2 5 : EinOp Int)
    (einMat 100 ⟨anyDim, ⟨0, 4, 3⟩⟩ ⟨anyDim, ⟨0, 3, 1⟩⟩ 5 2) :=
  ⟨by decide, some 100, [⟨anyDim, ⟨0, 3, 1⟩⟩, ⟨anyDim, ⟨0, 4, 3⟩⟩], rfl, rfl, rfl⟩

/-- `ein<0, 1>(A) * ein<1>(x)` with `A` transposed: 2×3 at 0, elements 0 to 5; `x` = (6, 7, 8); the result at 9. -/
example :
    let x : EinExpr Int := .op (einVec 6 ⟨anyDim, ⟨0, 3, 1⟩⟩ 1)
    let y : EinOp Int := einVec 9 ⟨anyDim, ⟨0, 2, 1⟩⟩ 0
    let m : Mem Int := fun a => if a < 9 then a else 0
    ∃ m1 m2,
      einReduce (· + ·) y (.binary (· * ·) (.op (einMat 0 ⟨anyDim, ⟨0, 2, 1⟩⟩ ⟨anyDim, ⟨0, 3, 2⟩⟩ 0 1)) x) m = some m1 ∧
      einReduce (· + ·) y (.binary (· * ·) x (.op (einMat 0 ⟨anyDim, ⟨0, 3, 2⟩⟩ ⟨anyDim, ⟨0, 2, 1⟩⟩ 1 0))) m = some m2 ∧
      m1 9 = 46 ∧ m2 9 = 46 ∧ m1 10 = 67 ∧ m2 10 = 67 := by
  intro x y m
  have n : ∀ s : Shape, s.all (fun d => decide (0 ≤ d.extent)) = true → NonNeg s := by
    intro s hs d hd
    exact of_decide_eq_true (List.all_eq_true.1 hs d hd)
  unfold einReduce
  rw [forEachIndex_eq (n _ (by decide +kernel)), forEachIndex_eq (n _ (by decide +kernel))]
  exact ⟨_, _, rfl, rfl, by decide +kernel, by decide +kernel, by decide +kernel, by decide +kernel⟩

/-- `ein_reduce(ein<>(r) = max(ein<>(r), ein<3>(x)))` for `x` = (2, 9, 4). -/
example :
    let x : EinExpr Int := .op (einVec 0 ⟨anyDim, ⟨0, 3, 1⟩⟩ 3)
    let m : Mem Int := fun a => if a = 0 then 2 else if a = 1 then 9 else if a = 2 then 4 else -1
    ∃ m1, einReduce (fun _ y => y) (einScal 7) (.binary max (.op (einScal 7)) x) m = some m1 ∧ m1 7 = 9 := by
  intro x m
  have n : ∀ s : Shape, s.all (fun d => decide (0 ≤ d.extent)) = true → NonNeg s := by
    intro s hs d hd
    exact of_decide_eq_true (List.all_eq_true.1 hs d hd)
  unfold einReduce
  rw [forEachIndex_eq (n _ (by decide +kernel))]
  exact ⟨_, rfl, by decide +kernel⟩

end Nda
