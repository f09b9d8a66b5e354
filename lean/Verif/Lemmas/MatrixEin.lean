import Verif.Lemmas.LinearAlgebra
/-
Lemmas about matrix multiplication with `ein_reduce` (C52).
-/
namespace Nda
open Spec Classical
variable {F : Type} {o : ScalarOps F}

/-- What `ein_reduce` needs to multiply matrices. -/
structure EinView (A B T : Image2) (a b t : Int) : Prop where
  view : MulView A B T a b t
  fitsA : Fits A.i.ty A.i.val ∧ Fits A.j.ty A.j.val
  fitsB : Fits B.i.ty B.i.val ∧ Fits B.j.ty B.j.val
  fitsT : Fits T.i.ty T.i.val ∧ Fits T.j.ty T.j.val
  pos : 0 ≤ T.i.val.extent ∧ 0 ≤ T.j.val.extent ∧ 0 ≤ A.j.val.extent
  strides : T.i.val.stride ≠ 0 ∧ T.j.val.stride ≠ 0
  rows : Encloses A.i T.i
  cols : Encloses B.j T.j
  inner : SameBounds A.j B.i

/-- The order of the loop indices. -/
def LoopOrder (i j k : Nat) : Prop :=
  (i = 2 ∧ j = 1 ∧ k = 0) ∨ (i = 2 ∧ j = 0 ∧ k = 1) ∨ (i = 1 ∧ j = 0 ∧ k = 2)

/-- A loop over one index, in order. -/
theorem loop_list {l : List Index} (e : Int → Index) (hlt : ∀ r r', ColexLt (e r) (e r') ↔ r < r') {v : Interval}
    (hp : l.Pairwise ColexLt) (hm : ∀ i, i ∈ l ↔ ∃ r, InInterval v r ∧ i = e r) :
    l = (ints v.min v.extent).map e := by
  have hinj : ∀ x y, e x = e y → x = y := by
    intro x y h
    by_contra hne
    rcases lt_or_gt_of_ne hne with h1 | h1
    · have := (hlt x x).1 (by have := (hlt x y).2 h1; rwa [← h] at this)
      omega
    · have := (hlt y y).1 (by have := (hlt y x).2 h1; rwa [h] at this)
      omega
  have hnd : ((ints v.min v.extent).map e).Nodup :=
    List.Nodup.map (fun x y h => hinj x y h) (ints_nodup _ _)
  have hperm := pairwise_perm hp hnd (fun i => by
    rw [hm, List.mem_map]
    constructor
    · rintro ⟨r, hr, rfl⟩; exact ⟨r, mem_ints.1 hr, rfl⟩
    · rintro ⟨r, hr, rfl⟩; exact ⟨r, mem_ints.2 hr, rfl⟩)
  refine List.Perm.eq_of_pairwise ?_ hp ?_ hperm
  · intro x y hx hy hxy hyx
    obtain ⟨r, _, rfl⟩ := List.mem_map.1 hy
    obtain ⟨r', _, rfl⟩ := (hm _).1 hx
    have := (hlt _ _).1 hxy
    have := (hlt _ _).1 hyx
    omega
  · rw [List.pairwise_map]
    exact (ints_pairwise _ _).imp fun h => (hlt _ _).2 h

/-- The tuple with `x`, `y` and `z` at positions `i`, `j` and `k`. -/
def loopTuple (i j : Nat) (x y z : Int) : Index :=
  if i = 1 then [y, x, z] else if j = 0 then [y, z, x] else [z, y, x]

theorem colex_tuple {i j k : Nat} (h : LoopOrder i j k) (x y z z' : Int) :
    ColexLt (loopTuple i j x y z) (loopTuple i j x y z') ↔ z < z' := by
  rcases h with ⟨rfl, rfl, rfl⟩ | ⟨rfl, rfl, rfl⟩ | ⟨rfl, rfl, rfl⟩
  · constructor
    · rintro ⟨_, k, p, q, hp, hq, hpq, _⟩
      match k, hp, hq with
      | 0, hp, hq => simp [loopTuple] at hp hq; omega
      | 1, hp, hq => simp [loopTuple] at hp hq; omega
      | 2, hp, hq => simp [loopTuple] at hp hq; omega
    · intro h
      exact ColexLt.cons_of_lt h
  · constructor
    · rintro ⟨_, k, p, q, hp, hq, hpq, _⟩
      match k, hp, hq with
      | 0, hp, hq => simp [loopTuple] at hp hq; omega
      | 1, hp, hq => simp [loopTuple] at hp hq; omega
      | 2, hp, hq => simp [loopTuple] at hp hq; omega
    · intro h
      exact ColexLt.cons (ColexLt.cons_of_lt h)
  · constructor
    · rintro ⟨_, k, p, q, hp, hq, hpq, _⟩
      match k, hp, hq with
      | 0, hp, hq => simp [loopTuple] at hp hq; omega
      | 1, hp, hq => simp [loopTuple] at hp hq; omega
      | 2, hp, hq => simp [loopTuple] at hp hq; omega
    · intro h
      exact ColexLt.cons (ColexLt.cons (ColexLt.cons_of_lt h))

section
variable {A B T : Image2} {a b t : Int} {i j k : Nat}

/-- The right-hand side. -/
def mulExpr (mul : F → F → F) (A B : Image2) (a b : Int) (i j k : Nat) : EinExpr F :=
  .binary mul (.op (einMat a A.i A.j i k)) (.op (einMat b B.i B.j k j))

theorem mulExpr_leaves (mul : F → F → F) : leaves (mulExpr mul A B a b i j k) =
    [einMat a A.i A.j i k, einMat b B.i B.j k j] := rfl

theorem mulExpr_assert (h : EinView A B T a b t) (ho : LoopOrder i j k) (mul : F → F → F) :
    einAssert (einMat t T.i T.j i j) (mulExpr mul A B a b i j k) = true := by
  have wai := withStride_val 0 h.fitsA.1
  have waj := withStride_val 0 h.fitsA.2
  have wbi := withStride_val 0 h.fitsB.1
  have wbj := withStride_val 0 h.fitsB.2
  have hr := h.rows
  have hc := h.cols
  have hin := h.inner
  unfold Encloses at hr hc
  unfold SameBounds at hin
  have ci : reconcileAssert [T.i, A.i.withStride 0] = true := by
    simp only [reconcileAssert, if_pos h.strides.1, List.map_cons, List.map_nil, all_iff, List.mem_cons,
      List.not_mem_nil, or_false, forall_eq, Dim.isInRangeI, Interval.max, Dim.max, Dim.toInterval,
      Bool.and_eq_true, wai]
    exact ⟨decide_eq_true (by omega), decide_eq_true (by omega)⟩
  have cj : reconcileAssert [T.j, B.j.withStride 0] = true := by
    simp only [reconcileAssert, if_pos h.strides.2, List.map_cons, List.map_nil, all_iff, List.mem_cons,
      List.not_mem_nil, or_false, forall_eq, Dim.isInRangeI, Interval.max, Dim.max, Dim.toInterval,
      Bool.and_eq_true, wbj]
    exact ⟨decide_eq_true (by omega), decide_eq_true (by omega)⟩
  have ck : reconcileAssert [A.j.withStride 0, B.i.withStride 0] = true :=
    reconcile_same (by rw [waj.1, wbi.1, hin.1]) (by rw [waj.2, wbi.2, hin.2])
  rw [einAssert_iff]
  intro n hn
  rcases ho with ⟨rfl, rfl, rfl⟩ | ⟨rfl, rfl, rfl⟩ | ⟨rfl, rfl, rfl⟩
  · have hn : n < 3 := hn
    match n, hn with
    | 0, _ => exact ck
    | 1, _ => exact cj
    | 2, _ => exact ci
  · have hn : n < 3 := hn
    match n, hn with
    | 0, _ => exact cj
    | 1, _ => exact ck
    | 2, _ => exact ci
  · have hn : n < 3 := hn
    match n, hn with
    | 0, _ => exact cj
    | 1, _ => exact ci
    | 2, _ => exact ck

theorem einMat_address (M : Image2) (x p q : Int) :
    x + offsetOf [M.i.val, M.j.val] [p, q] = elementAddress M x p q := by
  simp only [offsetOf, elementAddress]
  ring

theorem mulExpr_input (h : EinView A B T a b t) (ho : LoopOrder i j k) (mul : F → F → F) :
    EinInput (einMat t T.i T.j i j) (mulExpr mul A B a b i j k) := by
  have hne : i ≠ j ∧ i ≠ k ∧ k ≠ j := by unfold LoopOrder at ho; omega
  have element : ∀ {M : Image2} {x : Int} {p q : Nat} {c : Int}, OpElement (einMat x M.i M.j p q : EinOp F) c →
      ElementOf M x c := by
    rintro M x p q c ⟨b', u, hb, hu, rfl⟩
    cases hb
    match u, hu with
    | [p, q], hu => exact ⟨p, q, hu.1, hu.2.1, einMat_address M x p q⟩
  have typed : ∀ {M : Image2} {x : Int} {p q : Nat}, Fits M.i.ty M.i.val ∧ Fits M.j.ty M.j.val →
      OpTyped (einMat x M.i M.j p q : EinOp F) := by
    intro M x p q hf
    refine ⟨rfl, fun d hd => ?_⟩
    simp only [List.mem_cons, List.not_mem_nil, or_false] at hd
    rcases hd with rfl | rfl
    · exact hf.1
    · exact hf.2
  have nonneg : ∀ {M : Image2} {x : Int} {p q : Nat}, 0 ≤ M.i.val.extent → 0 ≤ M.j.val.extent →
      NonNeg (einDims (einMat x M.i M.j p q : EinOp F).op) := by
    intro M x p q h1 h2 d hd
    simp only [einMat, einDims, List.map_cons, List.map_nil, List.mem_cons, List.not_mem_nil, or_false] at hd
    rcases hd with rfl | rfl
    · exact h1
    · exact h2
  have hr := h.rows
  have hc := h.cols
  have hin := h.inner
  have hpos := h.pos
  unfold Encloses at hr hc
  unfold SameBounds at hin
  refine ⟨?_, ?_, ?_, ?_, ?_, ?_⟩
  · intro o ho
    simp only [mulExpr_leaves, List.mem_cons, List.not_mem_nil, or_false] at ho
    rcases ho with rfl | rfl | rfl
    · exact typed h.fitsT
    · exact typed h.fitsA
    · exact typed h.fitsB
  · intro o ho
    simp only [mulExpr_leaves, List.mem_cons, List.not_mem_nil, or_false] at ho
    rcases ho with rfl | rfl | rfl
    · exact nonneg (by omega) (by omega)
    · exact nonneg (by omega) (by omega)
    · exact nonneg (by omega) (by omega)
  · intro o ho
    simp only [mulExpr_leaves, List.mem_cons, List.not_mem_nil, or_false] at ho
    rcases ho with rfl | rfl | rfl
    · exact C42_no_repeat _ (by simp [einMat, hne.1])
    · exact C42_no_repeat _ (by simp [einMat, hne.2.1])
    · exact C42_no_repeat _ (by simp [einMat, hne.2.2])
  · intro o ho
    simp only [mulExpr_leaves, List.mem_cons, List.not_mem_nil, or_false] at ho
    rcases ho with rfl | rfl | rfl <;> (intro hb; cases hb)
  · intro u v hu hv e
    match u, v, hu, hv with
    | [p, q], [p', q'], hu, hv =>
      have e' := h.view.inj p q p' q' hu.1 hu.2.1 hv.1 hv.2.1 (by
        rw [← einMat_address, ← einMat_address]
        exact congrArg (t + ·) e)
      rw [e'.1, e'.2]
  · intro o ho c hc' hel
    have hT := h.view.sep c (element hc')
    simp only [mulExpr_leaves, List.mem_cons, List.not_mem_nil, or_false] at ho
    rcases ho with rfl | rfl
    · exact hT.1 (element hel)
    · exact hT.2 (element hel)

/-- `ein_reduce(ein<i, j>(T) += ein<i, k>(A) * ein<k, j>(B))`. -/
theorem multiplyEin_spec (h : EinView A B T a b t) (ho : LoopOrder i j k) (debug : Bool) {r : Mem F}
    {W : Int → Int → F} (hW : IsTerm o A B T a b t r W) (m : Mem F)
    (hm : ∀ p, Operands A B a b p → m p = r p) :
    ∃ m', multiplyEin o debug i j k A B T m = some m' ∧ ∀ p, m' p = if ElementOf T t p then
      (ints A.j.val.min A.j.val.extent).foldl (fun s k => o.add s (W k p)) (m p) else m p := by
  obtain ⟨m', e1, e2, e3⟩ := C41_fold o.add (einMat t T.i T.j i j) (mulExpr o.mul A B a b i j k) m
    (mulExpr_input h ho o.mul) (mulExpr_assert h ho o.mul) _ _ rfl
  refine ⟨m', ?_, fun p => ?_⟩
  · have ha := mulExpr_assert h ho o.mul
    unfold multiplyEin einReduceDebug Image2.dims
    unfold mulExpr einMat at ha e1
    rw [h.view.aBase, h.view.bBase, h.view.tBase, ha, requireAssert_true]
    exact e1
  · by_cases hp : ElementOf T t p
    · rw [if_pos hp]
      obtain ⟨x, y, hx, hy, rfl⟩ := hp
      obtain ⟨l, l1, l2, l3⟩ := e2 [x, y] ⟨hx, hy, trivial⟩
      have hl := loop_list (v := A.j.val.toInterval) (loopTuple i j x y) (fun z z' => colex_tuple ho x y z z') l1 (by
        intro u
        rw [l2]
        have inA : ∀ z, inDim A.j z → InBox [A.i.val, A.j.val] [x, z] := fun z hz =>
          ⟨h.view.rows x hx, hz, trivial⟩
        have inB : ∀ z, inDim A.j z → InBox [B.i.val, B.j.val] [z, y] := fun z hz =>
          ⟨h.view.inner z hz, h.view.cols y hy, trivial⟩
        rcases ho with ⟨rfl, rfl, rfl⟩ | ⟨rfl, rfl, rfl⟩ | ⟨rfl, rfl, rfl⟩
        · constructor
          · rintro ⟨⟨hlen, hr, _⟩, hpk⟩
            have hlen : u.length = 3 := hlen
            match u, hlen with
            | [z, y', x'], _ =>
              simp only [einMat, pick, List.map_cons, List.map_nil, List.getD_cons_zero, List.getD_cons_succ,
                List.cons.injEq, and_true] at hpk
              obtain ⟨rfl, rfl⟩ := hpk
              have := hr (einMat a A.i A.j 2 0) (by simp [mulExpr_leaves])
              exact ⟨z, this.2.1, rfl⟩
          · rintro ⟨z, hz, rfl⟩
            refine ⟨⟨rfl, ?_, ?_⟩, rfl⟩
            · intro o ho
              simp only [mulExpr_leaves, List.mem_cons, List.not_mem_nil, or_false] at ho
              rcases ho with rfl | rfl | rfl
              · exact ⟨hx, hy, trivial⟩
              · exact inA z hz
              · exact inB z hz
            · intro n hn hu
              have hn : n < 3 := hn
              exfalso
              match n, hn with
              | 0, _ => exact hu (einMat a A.i A.j 2 0) (by simp [mulExpr_leaves]) (by simp [OpUses, einMat])
              | 1, _ => exact hu (einMat t T.i T.j 2 1) (by simp) (by simp [OpUses, einMat])
              | 2, _ => exact hu (einMat t T.i T.j 2 1) (by simp) (by simp [OpUses, einMat])
        · constructor
          · rintro ⟨⟨hlen, hr, _⟩, hpk⟩
            have hlen : u.length = 3 := hlen
            match u, hlen with
            | [y', z, x'], _ =>
              simp only [einMat, pick, List.map_cons, List.map_nil, List.getD_cons_zero, List.getD_cons_succ,
                List.cons.injEq, and_true] at hpk
              obtain ⟨rfl, rfl⟩ := hpk
              have := hr (einMat a A.i A.j 2 1) (by simp [mulExpr_leaves])
              exact ⟨z, this.2.1, rfl⟩
          · rintro ⟨z, hz, rfl⟩
            refine ⟨⟨rfl, ?_, ?_⟩, rfl⟩
            · intro o ho
              simp only [mulExpr_leaves, List.mem_cons, List.not_mem_nil, or_false] at ho
              rcases ho with rfl | rfl | rfl
              · exact ⟨hx, hy, trivial⟩
              · exact inA z hz
              · exact inB z hz
            · intro n hn hu
              have hn : n < 3 := hn
              exfalso
              match n, hn with
              | 0, _ => exact hu (einMat t T.i T.j 2 0) (by simp) (by simp [OpUses, einMat])
              | 1, _ => exact hu (einMat a A.i A.j 2 1) (by simp [mulExpr_leaves]) (by simp [OpUses, einMat])
              | 2, _ => exact hu (einMat t T.i T.j 2 0) (by simp) (by simp [OpUses, einMat])
        · constructor
          · rintro ⟨⟨hlen, hr, _⟩, hpk⟩
            have hlen : u.length = 3 := hlen
            match u, hlen with
            | [y', x', z], _ =>
              simp only [einMat, pick, List.map_cons, List.map_nil, List.getD_cons_zero, List.getD_cons_succ,
                List.cons.injEq, and_true] at hpk
              obtain ⟨rfl, rfl⟩ := hpk
              have := hr (einMat a A.i A.j 1 2) (by simp [mulExpr_leaves])
              exact ⟨z, this.2.1, rfl⟩
          · rintro ⟨z, hz, rfl⟩
            refine ⟨⟨rfl, ?_, ?_⟩, rfl⟩
            · intro o ho
              simp only [mulExpr_leaves, List.mem_cons, List.not_mem_nil, or_false] at ho
              rcases ho with rfl | rfl | rfl
              · exact ⟨hx, hy, trivial⟩
              · exact inA z hz
              · exact inB z hz
            · intro n hn hu
              have hn : n < 3 := hn
              exfalso
              match n, hn with
              | 0, _ => exact hu (einMat t T.i T.j 1 0) (by simp) (by simp [OpUses, einMat])
              | 1, _ => exact hu (einMat t T.i T.j 1 0) (by simp) (by simp [OpUses, einMat])
              | 2, _ => exact hu (einMat a A.i A.j 1 2) (by simp [mulExpr_leaves]) (by simp [OpUses, einMat]))
      have ead := einMat_address T t x y
      have l3' : m' (elementAddress T t x y) = l.foldl (fun s u => o.add s (valueAt m u (mulExpr o.mul A B a b i j k)))
          (m (elementAddress T t x y)) := by
        rw [← ead]; exact l3
      rw [l3', hl, List.foldl_map]
      refine List.foldl_ext _ _ _ fun s z hz => ?_
      have hz : inDim A.j z := mem_ints.1 hz
      rw [hW x y z hx hy]
      congr 1
      have vA : valueAt m (loopTuple i j x y z) (.op (einMat a A.i A.j i k)) = m (elementAddress A a x z) := by
        rw [← einMat_address]
        rcases ho with ⟨rfl, rfl, rfl⟩ | ⟨rfl, rfl, rfl⟩ | ⟨rfl, rfl, rfl⟩ <;> rfl
      have vB : valueAt m (loopTuple i j x y z) (.op (einMat b B.i B.j k j)) = m (elementAddress B b z y) := by
        rw [← einMat_address]
        rcases ho with ⟨rfl, rfl, rfl⟩ | ⟨rfl, rfl, rfl⟩ | ⟨rfl, rfl, rfl⟩ <;> rfl
      show o.mul (valueAt m _ (.op _)) (valueAt m _ (.op _)) = _
      rw [vA, vB, hm _ (Or.inl ⟨x, z, h.view.rows x hx, hz, rfl⟩),
        hm _ (Or.inr ⟨z, y, h.view.inner z hz, h.view.cols y hy, rfl⟩)]
    · rw [if_neg hp]
      apply e3
      rintro ⟨b', u, hb, hu, rfl⟩
      cases hb
      match u, hu with
      | [p, q], hu => exact hp ⟨p, q, hu.1, hu.2.1, einMat_address T t p q⟩

end
end Nda
