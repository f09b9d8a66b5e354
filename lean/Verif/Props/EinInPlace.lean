import Verif.Lemmas.EinInPlace
import Verif.Props.EinExamples
/-
C94: Einstein reductions whose result has elements in common with operands.
-/
namespace Nda
open Spec
variable {α : Type}

/-- C94: C41 also holds if operands and the result have elements in common, as long as no element is read after it
was written. -/
theorem C94_fold (f : α → α → α) (lhs : EinOp α) (rhs : EinExpr α) (m : Mem α) (h : EinOperands lhs rhs)
    (hn : NotReadAfter lhs rhs) (ha : einAssert lhs rhs = true) (lb : Int) (ld : List SDim)
    (hl : lhs.op = .arr (some lb) ld) :
    ∃ m', einReduce f lhs rhs m = some m' ∧
      (∀ r, InBox (ld.map SDim.val) r → ∃ l : List Index,
        l.Pairwise ColexLt ∧ (∀ i, i ∈ l ↔ LoopIndex (lhs :: leaves rhs) i ∧ pick lhs.is i = r) ∧
        m' (lb + offsetOf (ld.map SDim.val) r) =
          l.foldl (fun x i => f x (valueAt m i rhs)) (m (lb + offsetOf (ld.map SDim.val) r))) ∧
      ∀ a, ¬ OpElement lhs a → m' a = m a := by
  have hE := einReduce_in_place f m h hn ha hl
  have hmem := h.mem_loop ha
  have hinj := h.injective
  obtain ⟨op, is⟩ := lhs
  simp only at hl
  subst hl
  have hrl : ∀ i ∈ boxList (einLoopShape ⟨.arr (some lb) ld, is⟩ rhs), InBox (ld.map SDim.val) (pick is i) :=
    fun i hi => ((hmem i).1 hi).2.1 ⟨.arr (some lb) ld, is⟩ (by simp)
  refine ⟨_, hE, fun r hrb => ?_, fun a hna => ?_⟩
  · refine ⟨(boxList (einLoopShape ⟨.arr (some lb) ld, is⟩ rhs)).filter fun i => pick is i = r,
      (boxList_pairwise _).filter _, fun i => ?_, ?_⟩
    · rw [List.mem_filter, hmem, decide_eq_true_eq]
    · rw [updates_apply, List.foldl_map]
      refine congrArg _ (List.filter_congr fun i hi => ?_)
      simp only [decide_eq_decide]
      constructor
      · intro e
        exact hinj _ _ (hrl i hi) hrb (by simp only [einDims]; omega)
      · rintro rfl; rfl
  · rw [updates_apply, List.filter_eq_nil_iff.2]
    · rfl
    · intro i hi
      simp only [decide_eq_true_eq]
      rintro rfl
      exact hna ⟨lb, _, rfl, hrl i hi, rfl⟩

/-- C94: element by element, in place. If nothing is summed, and each operand is the result itself with the same indices
or has no element in common with it, each element of the result is updated from the values before the reduction. -/
theorem C94_elementwise (f : α → α → α) (lhs : EinOp α) (rhs : EinExpr α) (m : Mem α) (h : EinOperands lhs rhs)
    (hs : NoSum lhs rhs) (hsame : ∀ o ∈ leaves rhs, o = lhs ∨ ∀ a, OpElement lhs a → ¬ OpElement o a)
    (ha : einAssert lhs rhs = true) (lb : Int) (ld : List SDim) (hl : lhs.op = .arr (some lb) ld) :
    ∃ m', einReduce f lhs rhs m = some m' ∧
      (∀ i, LoopIndex (lhs :: leaves rhs) i → m' (lb + offsetOf (ld.map SDim.val) (pick lhs.is i)) =
        f (m (lb + offsetOf (ld.map SDim.val) (pick lhs.is i))) (valueAt m i rhs)) ∧
      ∀ a, ¬ OpElement lhs a → m' a = m a := by
  have hn : NotReadAfter lhs rhs := by
    intro o ho i j hi hj hji a h1 h2
    obtain ⟨op, is⟩ := lhs
    simp only at hl
    subst hl
    have hjr : InBox (ld.map SDim.val) (pick is j) := hj.2.1 ⟨.arr (some lb) ld, is⟩ (by simp)
    rcases hsame o ho with rfl | hd
    · have e := (refers_eq.1 h1).symm.trans (refers_eq.1 h2)
      have hir : InBox (ld.map SDim.val) (pick is i) := hi.2.1 ⟨.arr (some lb) ld, is⟩ (by simp)
      have hij := h.injective _ _ hjr hir (by simp only [einDims]; omega)
      have := pick_unique hs hi hj hij.symm
      subst this
      exact colexLt_asymm hji hji
    · refine hd a ⟨lb, _, rfl, hjr, refers_eq.1 h1⟩ ?_
      have hor := hi.2.1 o (by simp [ho])
      obtain ⟨oop, ois⟩ := o
      cases oop with
      | fn g => exact h2.elim
      | arr base dims =>
        obtain ⟨b, e1, e2⟩ := h2
        exact ⟨b, _, e1, hor, e2⟩
  obtain ⟨m', e, h1, h2⟩ := C94_fold f lhs rhs m h hn ha lb ld hl
  refine ⟨m', e, fun i hi => ?_, h2⟩
  have hir : InBox (ld.map SDim.val) (pick lhs.is i) := by
    have := hi.2.1 lhs (by simp)
    unfold OpInRange at this
    rw [hl] at this
    exact this
  obtain ⟨l, hp, hmem, e2⟩ := h1 _ hir
  have hl1 : l = [i] := by
    refine loopIndices_unique hp (List.pairwise_singleton _ _) fun j => ?_
    rw [hmem, List.mem_singleton]
    constructor
    · rintro ⟨hj, e⟩
      exact pick_unique hs hj hi e
    · rintro rfl
      exact ⟨hi, rfl⟩
  rw [e2, hl1]
  rfl

/-- C94: copies `ein_reduce(ein<Is...>(a) = ein<Js...>(b))` between overlapping arrays are right for all contents exactly
if every element that is read after it was written was copied to itself. -/
theorem C94_copy [Nontrivial α] (lb rb : Int) (ld rd : List SDim) (is js : List Nat)
    (h : EinOperands (⟨.arr (some lb) ld, is⟩ : EinOp α) (.op ⟨.arr (some rb) rd, js⟩))
    (hs : NoSum (⟨.arr (some lb) ld, is⟩ : EinOp α) (.op ⟨.arr (some rb) rd, js⟩))
    (ha : einAssert (⟨.arr (some lb) ld, is⟩ : EinOp α) (.op ⟨.arr (some rb) rd, js⟩) = true) :
    let ops : List (EinOp α) := [⟨.arr (some lb) ld, is⟩, ⟨.arr (some rb) rd, js⟩]
    let target (i : Index) := lb + offsetOf (ld.map SDim.val) (pick is i)
    let source (i : Index) := rb + offsetOf (rd.map SDim.val) (pick js i)
    (∀ m : Mem α, ∃ m', einReduce (fun _ y => y) ⟨.arr (some lb) ld, is⟩ (.op ⟨.arr (some rb) rd, js⟩) m = some m' ∧
      ∀ i, LoopIndex ops i → m' (target i) = m (source i)) ↔
    ∀ i j, LoopIndex ops i → LoopIndex ops j → ColexLt j i → target j = source i → target j = source j := by
  intro ops target source
  set lhs : EinOp α := ⟨.arr (some lb) ld, is⟩ with hlhs
  set o : EinOp α := ⟨.arr (some rb) rd, js⟩ with ho
  have hmem : ∀ i, i ∈ boxList (einLoopShape lhs (.op o)) ↔ LoopIndex ops i := h.mem_loop ha
  have hrun : ∀ m : Mem α, einReduce (fun _ y => y) lhs (.op o) m =
      some fun x => m (copied target source (boxList (einLoopShape lhs (.op o))) x) := by
    intro m
    unfold einReduce
    rw [forEachIndex_eq (einLoopShape_nonNeg h.typed h.nonNeg)]
    refine foldlM_copied _ (fun i _ => ?_) (fun i hi m => ?_)
    · simp only [hlhs, EinOp.address, Option.map_some]
      rw [flatOffset_eq]; rfl
    · rw [eval_eq (fun o' ho' => ((hmem i).1 hi).2.1 o' (by
        simp only [leaves, List.mem_singleton] at ho'
        simp [ops, ho', ho])) (fun o' ho' => h.backed o' (by simp [ho']))]
      rfl
  have key := copied_iff target source (boxList (einLoopShape lhs (.op o))) ColexLt (boxList_pairwise _)
    (fun i _ j _ h1 h2 => colexLt_asymm h1 h2) (fun i hi j hj e => by
      have hi' := (hmem i).1 hi
      have hj' := (hmem j).1 hj
      refine pick_unique hs hi' hj' ?_
      exact h.injective _ _ (hi'.2.1 lhs (by simp [ops, hlhs])) (hj'.2.1 lhs (by simp [ops, hlhs])) (by
        simp only [hlhs, einDims]
        simp only [target] at e
        omega))
  constructor
  · intro hc i j hi hj hji e
    refine key.1 (fun i hi => ?_) i ((hmem i).2 hi) j ((hmem j).2 hj) hji e
    classical
    obtain ⟨x, y, hxy⟩ := exists_pair_ne α
    obtain ⟨m', e', hv⟩ := hc fun a => if a = source i then x else y
    rw [hrun] at e'
    cases e'
    have := hv i ((hmem i).1 hi)
    by_contra hne
    simp only [if_true] at this
    rw [if_neg hne] at this
    exact hxy this.symm
  · intro hc m
    refine ⟨_, hrun m, fun i hi => ?_⟩
    show m (copied target source _ (target i)) = m (source i)
    rw [key.2 (fun i hi j hj => hc i j ((hmem i).1 hi) ((hmem j).1 hj)) i ((hmem i).2 hi)]

theorem loop_vec {b c : Int} {d : SDim} {i : Index} :
    LoopIndex [(einVec b d 0 : EinOp α), einVec c d 0] i ↔
      ∃ x, i = [x] ∧ d.val.min ≤ x ∧ x < d.val.min + d.val.extent := by
  have hr : loopRank [(einVec b d 0 : EinOp α), einVec c d 0] = 1 := by simp [loopRank, einVec]
  constructor
  · rintro ⟨h1, h2, -⟩
    rw [hr, List.length_eq_one_iff] at h1
    obtain ⟨x, rfl⟩ := h1
    have := h2 (einVec b d 0) (by simp)
    simp only [OpInRange, einVec, pick, List.map_cons, List.map_nil, InBox, List.getD_cons_zero, and_true] at this
    exact ⟨x, rfl, this⟩
  · rintro ⟨x, rfl, h⟩
    refine ⟨by rw [hr]; rfl, fun o ho => ?_, fun k hk hu => ?_⟩
    · simp only [List.mem_cons, List.not_mem_nil, or_false] at ho
      rcases ho with rfl | rfl <;>
        simp only [OpInRange, einVec, pick, List.map_cons, List.map_nil, InBox, List.getD_cons_zero, and_true] <;> exact h
    · rw [hr] at hk
      have : k = 0 := by omega
      subst this
      exact absurd (uses_vec.2 rfl) (hu (einVec b d 0) (by simp))

theorem vec_operands (b c : Int) {d : SDim} (hd : GoodDim d) (hs : d.val.stride ≠ 0) :
    EinOperands (einVec b d 0 : EinOp α) (.op (einVec c d 0)) ∧
      NoSum (einVec b d 0 : EinOp α) (.op (einVec c d 0)) ∧
      einAssert (einVec b d 0 : EinOp α) (.op (einVec c d 0)) = true := by
  have hall : ∀ o ∈ (einVec b d 0 : EinOp α) :: leaves (.op (einVec c d 0)),
      HasBounds (fun _ => (d.val.min, d.val.extent)) o ∧ OpTyped o ∧ NonNeg (einDims o.op) ∧ OpBacked o := by
    intro o ho
    simp only [leaves, List.mem_cons, List.not_mem_nil, or_false] at ho
    rcases ho with rfl | rfl <;> exact ⟨hasBounds_vec ⟨rfl, rfl⟩, typed_vec hd⟩
  have hu : Uniform (fun _ => (d.val.min, d.val.extent)) ((einVec b d 0 : EinOp α) :: leaves (.op (einVec c d 0))) :=
    fun o ho => (hall o ho).1
  refine ⟨⟨fun o ho => (hall o ho).2.1, fun o ho => (hall o ho).2.2.1, hu.consistent, fun o ho => (hall o ho).2.2.2, ?_⟩,
    ?_, hu.einAssert fun o ho => (hall o ho).2.1⟩
  · intro i j hi hj e
    match i, j, hi, hj with
    | [x], [y], _, _ =>
      simp only [einVec, einDims, List.map_cons, List.map_nil, offsetOf, add_zero] at e
      have := mul_right_cancel₀ hs e
      rw [show x = y by omega]
  · intro o ho k hk
    simp only [leaves, List.mem_singleton] at ho
    subst ho
    rw [uses_vec] at hk
    subst hk
    simp [einVec]

/-- C94: moving a vector within itself by `k` elements, `ein_reduce(ein<i>(a) = ein<i>(a shifted by k))`: right for all
contents exactly if the elements move to smaller indices, or as far as the vector is long. -/
theorem C94_shift [Nontrivial α] (b k : Int) {d : SDim} (hd : GoodDim d) (hs : d.val.stride ≠ 0) (hn : 1 ≤ d.val.extent) :
    (∀ m : Mem α, ∃ m', einReduce (fun _ y => y) (einVec b d 0) (.op (einVec (b + k * d.val.stride) d 0)) m = some m' ∧
      ∀ x, inDim d x → vecAt m' b d x = vecAt m b d (x + k)) ↔ 0 ≤ k ∨ k ≤ -d.val.extent := by
  obtain ⟨h1, h2, h3⟩ := vec_operands (α := α) b (b + k * d.val.stride) hd hs
  have key := C94_copy (α := α) b (b + k * d.val.stride) [d] [d] [0] [0] h1 h2 h3
  dsimp only at key
  have e1 : ∀ (c : Int) (x : Int), c + offsetOf ([d].map SDim.val) (pick [0] [x]) = c + (x - d.val.min) * d.val.stride := by
    intro c x
    simp [offsetOf, pick]
  have e2 : ∀ m m' : Mem α, (∀ i, LoopIndex [(einVec b d 0 : EinOp α), einVec (b + k * d.val.stride) d 0] i →
      m' (b + offsetOf ([d].map SDim.val) (pick [0] i)) =
        m (b + k * d.val.stride + offsetOf ([d].map SDim.val) (pick [0] i))) ↔
      ∀ x, inDim d x → vecAt m' b d x = vecAt m b d (x + k) := by
    intro m m'
    have e3 : ∀ x, b + k * d.val.stride + (x - d.val.min) * d.val.stride = b + (x + k - d.val.min) * d.val.stride := by
      intro x
      ring
    constructor
    · intro h x hx
      have := h [x] (loop_vec.2 ⟨x, rfl, hx⟩)
      rw [e1, e1, e3] at this
      exact this
    · intro h i hi
      obtain ⟨x, rfl, hx⟩ := loop_vec.1 hi
      rw [e1, e1, e3]
      exact h x hx
  have e4 : ∀ x y : Int, b + (x - d.val.min) * d.val.stride = b + k * d.val.stride + (y - d.val.min) * d.val.stride ↔
      x = y + k := by
    intro x y
    constructor
    · intro h
      have : (x - d.val.min) * d.val.stride = (k + y - d.val.min) * d.val.stride := by linarith
      have := mul_right_cancel₀ hs this
      omega
    · rintro rfl
      ring
  refine Iff.trans (forall_congr' fun m => exists_congr fun m' => and_congr_right fun _ => (e2 m m').symm) (key.trans ?_)
  constructor
  · intro h
    by_contra hk
    push Not at hk
    have := h [d.val.min - k] [d.val.min] (loop_vec.2 ⟨_, rfl, by omega, by omega⟩) (loop_vec.2 ⟨_, rfl, by omega, by omega⟩)
      ⟨rfl, 0, d.val.min, d.val.min - k, rfl, rfl, by omega, fun j hj => by
        rw [List.getElem?_eq_none (by simp; omega), List.getElem?_eq_none (by simp; omega)]⟩ (by
        rw [e1, e1, e4]
        omega)
    rw [e1, e1, e4] at this
    omega
  · intro hk i j hi hj hji e
    obtain ⟨x, rfl, hx⟩ := loop_vec.1 hi
    obtain ⟨y, rfl, hy⟩ := loop_vec.1 hj
    rw [e1, e1, e4] at e
    obtain ⟨-, t, u, v, ht, hv, huv, -⟩ := hji
    rcases t with _ | t
    · simp at ht hv
      omega
    · simp at ht

theorem loop_transpose {b : Int} {d0 d1 : SDim} (hd : SameBounds d0 d1) {i : Index} :
    LoopIndex [(einMat b d0 d1 0 1 : EinOp α), einMat b d0 d1 1 0] i ↔
      ∃ x y, i = [x, y] ∧ inDim d0 x ∧ inDim d0 y := by
  have hr : loopRank [(einMat b d0 d1 0 1 : EinOp α), einMat b d0 d1 1 0] = 2 := by simp [loopRank, einMat]
  obtain ⟨hm, he⟩ := hd
  constructor
  · rintro ⟨h1, h2, -⟩
    rw [hr, List.length_eq_two] at h1
    obtain ⟨x, y, rfl⟩ := h1
    have := h2 (einMat b d0 d1 0 1) (by simp)
    simp [OpInRange, einMat, pick, InBox] at this
    refine ⟨x, y, rfl, this.1, ?_⟩
    unfold inDim
    omega
  · rintro ⟨x, y, rfl, hx, hy⟩
    unfold inDim at hx hy
    refine ⟨by rw [hr]; rfl, fun o ho => ?_, fun k hk hu => ?_⟩
    · simp only [List.mem_cons, List.not_mem_nil, or_false] at ho
      rcases ho with rfl | rfl <;> simp [OpInRange, einMat, pick, InBox] <;> omega
    · rw [hr] at hk
      have : k = 0 ∨ k = 1 := by omega
      exact absurd (uses_mat.2 this) (hu (einMat b d0 d1 0 1) (by simp))

/-- C94: transposing a square matrix in place, `ein_reduce(ein<i, j>(a) = ein<j, i>(a))`, is right for all contents only if
the matrix has at most one element. -/
theorem C94_transpose [Nontrivial α] (b : Int) {d0 d1 : SDim} (h0 : GoodDim d0) (h1 : GoodDim d1) (hd : SameBounds d0 d1)
    (hinj : Injective [d0.val, d1.val]) :
    (∀ m : Mem α, ∃ m', einReduce (fun _ y => y) (einMat b d0 d1 0 1) (.op (einMat b d0 d1 1 0)) m = some m' ∧
      ∀ x y, inDim d0 x → inDim d0 y → matAt m' b d0 d1 x y = matAt m b d0 d1 y x) ↔ d0.val.extent ≤ 1 := by
  have hall : ∀ o ∈ (einMat b d0 d1 0 1 : EinOp α) :: leaves (.op (einMat b d0 d1 1 0)),
      HasBounds (fun _ => (d0.val.min, d0.val.extent)) o ∧ OpTyped o ∧ NonNeg (einDims o.op) ∧ OpBacked o := by
    intro o ho
    simp only [leaves, List.mem_cons, List.not_mem_nil, or_false] at ho
    rcases ho with rfl | rfl <;> exact ⟨hasBounds_mat ⟨rfl, rfl⟩ ⟨hd.1.symm, hd.2.symm⟩, typed_mat h0 h1⟩
  have hu : Uniform (fun _ => (d0.val.min, d0.val.extent))
      ((einMat b d0 d1 0 1 : EinOp α) :: leaves (.op (einMat b d0 d1 1 0))) := fun o ho => (hall o ho).1
  have key := C94_copy (α := α) b b [d0, d1] [d0, d1] [0, 1] [1, 0]
    ⟨fun o ho => (hall o ho).2.1, fun o ho => (hall o ho).2.2.1, hu.consistent, fun o ho => (hall o ho).2.2.2, hinj⟩
    (fun o ho k hk => by
      simp only [leaves, List.mem_singleton] at ho
      subst ho
      simp only [OpUses] at hk
      simp only [List.mem_cons, List.not_mem_nil, or_false] at hk ⊢
      exact hk.symm) (hu.einAssert fun o ho => (hall o ho).2.1)
  dsimp only at key
  have e1 : ∀ x y, b + offsetOf ([d0, d1].map SDim.val) (pick [0, 1] [x, y]) =
      b + (x - d0.val.min) * d0.val.stride + (y - d1.val.min) * d1.val.stride := by
    intro x y
    simp [offsetOf, pick]
    ring
  have e1' : ∀ x y, b + offsetOf ([d0, d1].map SDim.val) (pick [1, 0] [x, y]) =
      b + (y - d0.val.min) * d0.val.stride + (x - d1.val.min) * d1.val.stride := by
    intro x y
    simp [offsetOf, pick]
    ring
  have e2 : ∀ m m' : Mem α, (∀ i, LoopIndex [(einMat b d0 d1 0 1 : EinOp α), einMat b d0 d1 1 0] i →
      m' (b + offsetOf ([d0, d1].map SDim.val) (pick [0, 1] i)) = m (b + offsetOf ([d0, d1].map SDim.val) (pick [1, 0] i))) ↔
      ∀ x y, inDim d0 x → inDim d0 y → matAt m' b d0 d1 x y = matAt m b d0 d1 y x := by
    intro m m'
    constructor
    · intro h x y hx hy
      have := h [x, y] ((loop_transpose hd).2 ⟨x, y, rfl, hx, hy⟩)
      rw [e1, e1'] at this
      exact this
    · intro h i hi
      obtain ⟨x, y, rfl, hx, hy⟩ := (loop_transpose hd).1 hi
      rw [e1, e1']
      exact h x y hx hy
  refine Iff.trans (forall_congr' fun m => exists_congr fun m' => and_congr_right fun _ => (e2 m m').symm) (key.trans ?_)
  constructor
  · intro h
    by_contra hn
    push Not at hn
    have hlo : inDim d0 d0.val.min := ⟨le_rfl, by omega⟩
    have hhi : inDim d0 (d0.val.min + 1) := ⟨by omega, by omega⟩
    have := h [d0.val.min, d0.val.min + 1] [d0.val.min + 1, d0.val.min] ((loop_transpose hd).2 ⟨_, _, rfl, hlo, hhi⟩)
      ((loop_transpose hd).2 ⟨_, _, rfl, hhi, hlo⟩)
      ⟨rfl, 1, d0.val.min, d0.val.min + 1, rfl, rfl, by omega, fun j hj => by
        rw [List.getElem?_eq_none (by simp; omega), List.getElem?_eq_none (by simp; omega)]⟩ (by rw [e1, e1'])
    rw [e1, e1'] at this
    have hne := hinj [d0.val.min + 1, d0.val.min] [d0.val.min, d0.val.min + 1] (by
      have := hd.1; have := hd.2
      simp only [InBox, and_true]; omega) (by
      have := hd.1; have := hd.2
      simp only [InBox, and_true]; omega) (by
      simp only [offsetOf]
      linarith)
    simp at hne
  · intro hn i j hi hj hji e
    exfalso
    obtain ⟨x, y, rfl, hx, hy⟩ := (loop_transpose hd).1 hi
    obtain ⟨x', y', rfl, hx', hy'⟩ := (loop_transpose hd).1 hj
    unfold inDim at hx hy hx' hy'
    have : x' = x := by omega
    subst this
    have : y' = y := by omega
    subst this
    exact colexLt_asymm hji hji

/-- C94, counterexample: `ein_reduce(ein<i>(x) += ein<i, j>(A) * ein<j>(x))` does not add `A * x` to `x`: with
`A = ((0, 1), (1, 0))` and `x = (1, 1)` it gives (3, 2), not (2, 2). -/
theorem C94_product_counterexample :
    let x (k : Nat) : EinOp Int := einVec 0 ⟨anyDim, ⟨0, 2, 1⟩⟩ k
    let A : EinOp Int := einMat 10 ⟨anyDim, ⟨0, 2, 1⟩⟩ ⟨anyDim, ⟨0, 2, 2⟩⟩ 0 1
    let m : Mem Int := fun a => if a = 0 ∨ a = 1 ∨ a = 11 ∨ a = 12 then 1 else 0
    einAssert (x 0) (.binary (· * ·) (.op A) (.op (x 1))) = true ∧
    (einReduce (· + ·) (x 0) (.binary (· * ·) (.op A) (.op (x 1))) m).map (fun m => (m 0, m 1)) = some (3, 2) := by
  intro x A m
  refine ⟨by decide +kernel, ?_⟩
  unfold einReduce
  have e : einLoopShape (x 0) (.binary (· * ·) (.op A) (.op (x 1))) = [⟨0, 2, 1⟩, ⟨0, 2, 0⟩] := by decide +kernel
  rw [e, forEachIndex_eq (by simp [NonNeg])]
  decide +kernel

/-- Squaring a vector and adding another one, in place: `ein_reduce(ein<i>(x) = ein<i>(x) * ein<i>(x) + ein<i>(y))`. -/
example (b c : Int) (hbc : b + 5 ≤ c) (m : Mem Int) :
    let d : SDim := ⟨anyDim, ⟨0, 5, 1⟩⟩
    ∃ m', einReduce (fun _ v => v) (einVec b d 0) (.binary (· + ·) (.binary (· * ·) (.op (einVec b d 0)) (.op (einVec b d 0)))
      (.op (einVec c d 0))) m = some m' ∧ ∀ t, 0 ≤ t → t < 5 → m' (b + t) = m (b + t) * m (b + t) + m (c + t) := by
  intro d
  have hd : GoodDim d := goodDim_any _ (by decide)
  have hall : ∀ o ∈ (einVec b d 0 : EinOp Int) :: leaves (.binary (· + ·) (.binary (· * ·) (.op (einVec b d 0))
      (.op (einVec b d 0))) (.op (einVec c d 0))), o = einVec b d 0 ∨ o = einVec c d 0 := by
    intro o ho
    simp [leaves] at ho
    exact ho
  have hall' : ∀ o ∈ (einVec b d 0 : EinOp Int) :: leaves (.binary (· + ·) (.binary (· * ·) (.op (einVec b d 0))
      (.op (einVec b d 0))) (.op (einVec c d 0))),
      HasBounds (fun _ => (0, 5)) o ∧ OpTyped o ∧ NonNeg (einDims o.op) ∧ OpBacked o := by
    intro o ho
    rcases hall o ho with rfl | rfl <;> exact ⟨hasBounds_vec ⟨rfl, rfl⟩, typed_vec hd⟩
  have hu : Uniform (fun _ => (0, 5)) ((einVec b d 0 : EinOp Int) :: leaves (.binary (· + ·) (.binary (· * ·)
      (.op (einVec b d 0)) (.op (einVec b d 0))) (.op (einVec c d 0)))) := fun o ho => (hall' o ho).1
  obtain ⟨m', e, h1, -⟩ := C94_elementwise (fun _ v => v) (einVec b d 0) (.binary (· + ·) (.binary (· * ·)
    (.op (einVec b d 0)) (.op (einVec b d 0))) (.op (einVec c d 0))) m
    ⟨fun o ho => (hall' o ho).2.1, fun o ho => (hall' o ho).2.2.1, hu.consistent, fun o ho => (hall' o ho).2.2.2,
      (vec_operands (α := Int) b c hd (by decide)).1.injective⟩
    (fun o ho k hk => by
      rcases hall o (by simp [ho]) with rfl | rfl <;> (rw [uses_vec] at hk; subst hk; simp [einVec]))
    (fun o ho => by
      rcases hall o (by simp [ho]) with rfl | rfl
      · exact Or.inl rfl
      · refine Or.inr ?_
        rintro a ⟨p, i, e1, h1, e2⟩ ⟨q, j, e3, h2, e4⟩
        cases e1
        cases e3
        match i, j, h1, h2 with
        | [x], [y], h1, h2 =>
          simp [InBox, offsetOf, d] at h1 h2 e2 e4
          omega)
    (hu.einAssert fun o ho => (hall' o ho).2.1) b [d] rfl
  refine ⟨m', e, fun t h0 h5 => ?_⟩
  have hl : LoopIndex ((einVec b d 0 : EinOp Int) :: leaves (.binary (· + ·) (.binary (· * ·) (.op (einVec b d 0))
      (.op (einVec b d 0))) (.op (einVec c d 0)))) [t] := by
    refine ⟨by simp [loopRank, leaves, einVec], fun o ho => ?_, fun k hk hu => ?_⟩
    · rcases hall o ho with rfl | rfl <;> simp [OpInRange, einVec, pick, InBox, d] <;> omega
    · simp [loopRank, leaves, einVec] at hk
      subst hk
      exact absurd (uses_vec.2 rfl) (hu (einVec b d 0) (by simp))
  have := h1 [t] hl
  simpa [valueAt, einVec, pick, offsetOf, d] using this

/-- Five elements, moved by one. -/
example : (∀ m : Mem Int, ∃ m', einReduce (fun _ y => y) (einVec 0 ⟨anyDim, ⟨0, 5, 1⟩⟩ 0)
    (.op (einVec 1 ⟨anyDim, ⟨0, 5, 1⟩⟩ 0)) m = some m' ∧
    ∀ x, inDim ⟨anyDim, ⟨0, 5, 1⟩⟩ x → vecAt m' 0 ⟨anyDim, ⟨0, 5, 1⟩⟩ x = vecAt m 0 ⟨anyDim, ⟨0, 5, 1⟩⟩ (x + 1)) :=
  (C94_shift 0 1 (goodDim_any _ (by decide)) (by decide) (by decide)).2 (Or.inl (by decide))
example : ¬ (∀ m : Mem Int, ∃ m', einReduce (fun _ y => y) (einVec 0 ⟨anyDim, ⟨0, 5, 1⟩⟩ 0)
    (.op (einVec (-1) ⟨anyDim, ⟨0, 5, 1⟩⟩ 0)) m = some m' ∧
    ∀ x, inDim ⟨anyDim, ⟨0, 5, 1⟩⟩ x → vecAt m' 0 ⟨anyDim, ⟨0, 5, 1⟩⟩ x = vecAt m 0 ⟨anyDim, ⟨0, 5, 1⟩⟩ (x + -1)) :=
  fun h => by
    have := (C94_shift 0 (-1) (goodDim_any _ (by decide)) (by decide) (by decide)).1 h
    revert this
    decide

end Nda
