import Verif.Props.Ein
import Mathlib.Algebra.Ring.Defs
/-
C41, the examples of the documentation (ein_reduce.h:405-417), for all sizes, bounds, strides and
all distinct loop indices.
-/
namespace Nda
open Spec
variable {α : Type}

/-- A sum over one loop variable: the result uses every variable but `k`. -/
theorem einReduce_sum1 [AddCommMonoid α] {lhs : EinOp α} {rhs : EinExpr α} {m : Mem α} {B : Nat → Int × Int}
    (h : ∀ o ∈ lhs :: leaves rhs, HasBounds B o ∧ OpTyped o ∧ NonNeg (einDims o.op) ∧ OpBacked o)
    (hr : GoodResult lhs rhs) {lb : Int} {ld : List SDim} (hl : lhs.op = .arr (some lb) ld) (k : Nat)
    (hkl : k ∉ lhs.is) (hku : ∃ o ∈ leaves rhs, OpUses o k)
    (hu : ∀ o ∈ leaves rhs, ∀ t, OpUses o t → t = k ∨ t ∈ lhs.is) :
    ∃ m', einReduce (· + ·) lhs rhs m = some m' ∧
      (∀ fixed : Nat → Int, (∀ t ∈ lhs.is, (B t).1 ≤ fixed t ∧ fixed t < (B t).1 + (B t).2) →
        (∀ t, t ∉ lhs.is → fixed t = 0) →
        m' (lb + offsetOf (ld.map SDim.val) (lhs.is.map fixed)) =
          m (lb + offsetOf (ld.map SDim.val) (lhs.is.map fixed)) +
          ∑ z ∈ Finset.Ico (B k).1 ((B k).1 + (B k).2), valueAt m
            ((List.range (loopRank (lhs :: leaves rhs))).map (Function.update fixed k z)) rhs) ∧
      ∀ p, ¬ OpElement lhs p → m' p = m p := by
  obtain ⟨hin, ha, hun, ht⟩ := einInput_of h hr
  obtain ⟨m', hm', hs, hframe⟩ := C41_sum lhs rhs m hin ha lb ld hl
  refine ⟨m', hm', ?_, hframe⟩
  intro fixed hf h0
  obtain ⟨o, ho, hku⟩ := hku
  have hul : ∀ t, t ∈ lhs.is → OpUses lhs t := by
    intro t ht'
    obtain ⟨op, is⟩ := lhs
    simp only at hl
    subst hl
    exact ht'
  obtain ⟨hnd, hmem⟩ := loop_enum1 hun ht lhs.is (fun t ht' => lt_loopRank (by simp) ht') k
    (lt_loopRank (o := o) (by simp [ho]) (opUses_mem hku)) hkl ⟨o, by simp [ho], hku⟩ fixed
    (by
      intro t _ htk
      constructor
      · rintro ⟨o, ho, hu'⟩
        rcases List.mem_cons.1 ho with rfl | ho
        · exact hf t (opUses_mem hu')
        · exact hf t ((hu o ho t hu').resolve_left htk)
      · intro hn
        exact h0 t fun ht' => hn lhs (by simp) (hul t ht'))
    (by
      intro o ho t hu'
      rcases List.mem_cons.1 ho with rfl | ho
      · exact Or.inr (opUses_mem hu')
      · exact hu o ho t hu')
  have hbox : InBox (ld.map SDim.val) (lhs.is.map fixed) := by
    have htl := ht lhs (by simp)
    have hBl := (h lhs (by simp)).1
    obtain ⟨op, is⟩ := lhs
    simp only at hl
    subst hl
    rw [inBox_iff_get]
    refine ⟨by rw [List.length_map, List.length_map]; exact htl.1, fun p d x hd hx => ?_⟩
    rw [List.getElem?_map, Option.map_eq_some_iff] at hx
    obtain ⟨t, ht', rfl⟩ := hx
    have := hBl p t d ht' hd
    have := hf t (List.mem_of_getElem? ht')
    omega
  have := hs _ hbox _ hnd hmem
  rwa [List.map_map, sum_ints] at this

/-- C41: `ein_reduce(ein<i, j>(AB) += ein<i, k>(A) * ein<k, j>(B))` adds the matrix product. -/
theorem C41_matrix_product [NonUnitalNonAssocSemiring α] (i j k : Nat) (hij : i ≠ j) (hik : i ≠ k)
    (hjk : j ≠ k) (c a b : Int) (c0 c1 a0 a1 b0 b1 : SDim)
    (hg : ∀ d ∈ [c0, c1, a0, a1, b0, b1], GoodDim d)
    (h0 : SameBounds a0 c0) (h1 : SameBounds b1 c1) (h2 : SameBounds b0 a1)
    (hr : GoodResult (einMat c c0 c1 i j)
      (.binary (· * ·) (.op (einMat a a0 a1 i k)) (.op (einMat b b0 b1 k j)) : EinExpr α)) (m : Mem α) :
    ∃ m', einReduce (· + ·) (einMat c c0 c1 i j)
        (.binary (· * ·) (.op (einMat a a0 a1 i k)) (.op (einMat b b0 b1 k j))) m = some m' ∧
      (∀ x y, inDim c0 x → inDim c1 y → matAt m' c c0 c1 x y = matAt m c c0 c1 x y +
        ∑ z ∈ Finset.Ico a1.val.min (a1.val.min + a1.val.extent),
          matAt m a a0 a1 x z * matAt m b b0 b1 z y) ∧
      ∀ p, ¬ OpElement (einMat c c0 c1 i j : EinOp α) p → m' p = m p := by
  obtain ⟨B, Bi, Bj, Bk⟩ : ∃ B : Nat → Int × Int, B i = (c0.val.min, c0.val.extent) ∧
      B j = (c1.val.min, c1.val.extent) ∧ B k = (a1.val.min, a1.val.extent) :=
    ⟨fun t => if t = i then (c0.val.min, c0.val.extent) else
      if t = j then (c1.val.min, c1.val.extent) else (a1.val.min, a1.val.extent),
      if_pos rfl, by simp [Ne.symm hij], by simp [Ne.symm hik, Ne.symm hjk]⟩
  obtain ⟨m', hm', hs, hframe⟩ := einReduce_sum1 (B := B) (m := m) (by
    intro o ho
    simp only [leaves, List.cons_append, List.nil_append, List.mem_cons, List.not_mem_nil, or_false] at ho
    rcases ho with rfl | rfl | rfl
    · exact ⟨hasBounds_mat (by rw [Bi]; exact ⟨rfl, rfl⟩) (by rw [Bj]; exact ⟨rfl, rfl⟩),
        typed_mat (hg _ (by simp)) (hg _ (by simp))⟩
    · exact ⟨hasBounds_mat (by rw [Bi]; exact h0) (by rw [Bk]; exact ⟨rfl, rfl⟩),
        typed_mat (hg _ (by simp)) (hg _ (by simp))⟩
    · exact ⟨hasBounds_mat (by rw [Bk]; exact h2) (by rw [Bj]; exact h1),
        typed_mat (hg _ (by simp)) (hg _ (by simp))⟩) hr (lb := c) (ld := [c0, c1]) rfl k
    (by simp [einMat, Ne.symm hik, Ne.symm hjk])
    ⟨einMat a a0 a1 i k, by simp [leaves], uses_mat.2 (Or.inr rfl)⟩
    (by
      intro o ho t hu
      simp only [leaves, List.cons_append, List.nil_append, List.mem_cons, List.not_mem_nil, or_false] at ho
      simp only [einMat, List.mem_cons, List.not_mem_nil, or_false]
      rcases ho with rfl | rfl <;> rw [uses_mat] at hu <;> tauto)
  refine ⟨m', hm', ?_, hframe⟩
  intro x y hx hy
  obtain ⟨fixed, fi, fj, f0⟩ : ∃ fixed : Nat → Int, fixed i = x ∧ fixed j = y ∧
      ∀ t, t ∉ [i, j] → fixed t = 0 :=
    ⟨fun t => if t = i then x else if t = j then y else 0, if_pos rfl, by simp [Ne.symm hij], by
      intro t ht
      simp only [List.mem_cons, List.not_mem_nil, or_false, not_or] at ht
      simp [ht.1, ht.2]⟩
  have := hs fixed (by
    intro t ht
    simp only [einMat, List.mem_cons, List.not_mem_nil, or_false] at ht
    rcases ht with rfl | rfl
    · rw [Bi, fi]; exact hx
    · rw [Bj, fj]; exact hy) f0
  have hi := lt_loopRank (ops := (einMat c c0 c1 i j : EinOp α) ::
    leaves (.binary (· * ·) (.op (einMat a a0 a1 i k)) (.op (einMat b b0 b1 k j)))) (k := i)
    List.mem_cons_self (by simp [einMat])
  have hj := lt_loopRank (ops := (einMat c c0 c1 i j : EinOp α) ::
    leaves (.binary (· * ·) (.op (einMat a a0 a1 i k)) (.op (einMat b b0 b1 k j)))) (k := j)
    List.mem_cons_self (by simp [einMat])
  have hk := lt_loopRank (ops := (einMat c c0 c1 i j : EinOp α) ::
    leaves (.binary (· * ·) (.op (einMat a a0 a1 i k)) (.op (einMat b b0 b1 k j)))) (k := k)
    (o := einMat a a0 a1 i k) (by simp [leaves]) (by simp [einMat])
  rw [show (einMat c c0 c1 i j : EinOp α).is.map fixed = [x, y] from by simp [einMat, fi, fj]] at this
  simp only [offsetOf, List.map_cons, List.map_nil, add_zero, ← add_assoc, Bk] at this
  simp only [valueAt, valueAt_mat hi hk, valueAt_mat hk hj, Function.update_self,
    Function.update_of_ne hik, Function.update_of_ne hjk, fi, fj] at this
  exact this

/-- C41: `ein_reduce(ein<i>(Ax) += ein<i, j>(A) * ein<j>(x))` adds the matrix-vector product. -/
theorem C41_matrix_vector [NonUnitalNonAssocSemiring α] (i j : Nat) (hij : i ≠ j) (c a b : Int)
    (c0 a0 a1 b0 : SDim) (hg : ∀ d ∈ [c0, a0, a1, b0], GoodDim d)
    (h0 : SameBounds a0 c0) (h1 : SameBounds b0 a1)
    (hr : GoodResult (einVec c c0 i)
      (.binary (· * ·) (.op (einMat a a0 a1 i j)) (.op (einVec b b0 j)) : EinExpr α)) (m : Mem α) :
    ∃ m', einReduce (· + ·) (einVec c c0 i)
        (.binary (· * ·) (.op (einMat a a0 a1 i j)) (.op (einVec b b0 j))) m = some m' ∧
      (∀ x, inDim c0 x → vecAt m' c c0 x = vecAt m c c0 x +
        ∑ z ∈ Finset.Ico a1.val.min (a1.val.min + a1.val.extent),
          matAt m a a0 a1 x z * vecAt m b b0 z) ∧
      ∀ p, ¬ OpElement (einVec c c0 i : EinOp α) p → m' p = m p := by
  obtain ⟨B, Bi, Bj⟩ : ∃ B : Nat → Int × Int, B i = (c0.val.min, c0.val.extent) ∧
      B j = (a1.val.min, a1.val.extent) :=
    ⟨fun t => if t = i then (c0.val.min, c0.val.extent) else (a1.val.min, a1.val.extent),
      if_pos rfl, by simp [Ne.symm hij]⟩
  obtain ⟨m', hm', hs, hframe⟩ := einReduce_sum1 (B := B) (m := m) (by
    intro o ho
    simp only [leaves, List.cons_append, List.nil_append, List.mem_cons, List.not_mem_nil, or_false] at ho
    rcases ho with rfl | rfl | rfl
    · exact ⟨hasBounds_vec (by rw [Bi]; exact ⟨rfl, rfl⟩), typed_vec (hg _ (by simp))⟩
    · exact ⟨hasBounds_mat (by rw [Bi]; exact h0) (by rw [Bj]; exact ⟨rfl, rfl⟩),
        typed_mat (hg _ (by simp)) (hg _ (by simp))⟩
    · exact ⟨hasBounds_vec (by rw [Bj]; exact h1), typed_vec (hg _ (by simp))⟩) hr (lb := c) (ld := [c0]) rfl j
    (by simp [einVec, Ne.symm hij])
    ⟨einMat a a0 a1 i j, by simp [leaves], uses_mat.2 (Or.inr rfl)⟩
    (by
      intro o ho t hu
      simp only [leaves, List.cons_append, List.nil_append, List.mem_cons, List.not_mem_nil, or_false] at ho
      simp only [einVec, List.mem_cons, List.not_mem_nil, or_false]
      rcases ho with rfl | rfl
      · rw [uses_mat] at hu; tauto
      · rw [uses_vec] at hu; tauto)
  refine ⟨m', hm', ?_, hframe⟩
  intro x hx
  obtain ⟨fixed, fi, f0⟩ : ∃ fixed : Nat → Int, fixed i = x ∧ ∀ t, t ∉ [i] → fixed t = 0 :=
    ⟨fun t => if t = i then x else 0, if_pos rfl, by
      intro t ht
      simp only [List.mem_cons, List.not_mem_nil, or_false] at ht
      simp [ht]⟩
  have := hs fixed (by
    intro t ht
    simp only [einVec, List.mem_cons, List.not_mem_nil, or_false] at ht
    subst ht
    rw [Bi, fi]; exact hx) f0
  have hi := lt_loopRank (ops := (einVec c c0 i : EinOp α) ::
    leaves (.binary (· * ·) (.op (einMat a a0 a1 i j)) (.op (einVec b b0 j)))) (k := i)
    List.mem_cons_self (by simp [einVec])
  have hj := lt_loopRank (ops := (einVec c c0 i : EinOp α) ::
    leaves (.binary (· * ·) (.op (einMat a a0 a1 i j)) (.op (einVec b b0 j)))) (k := j)
    (o := einMat a a0 a1 i j) (by simp [leaves]) (by simp [einMat])
  rw [show (einVec c c0 i : EinOp α).is.map fixed = [x] from by simp [einVec, fi]] at this
  simp only [offsetOf, List.map_cons, List.map_nil, add_zero, Bj] at this
  simp only [valueAt, valueAt_mat hi hj, valueAt_vec hj, Function.update_self,
    Function.update_of_ne hij, fi] at this
  exact this

/-- C41: `ein_reduce(ein<>(dot) += (ein<i>(x) + ein<i>(y)) * ein<i>(z))` adds the dot product. -/
theorem C41_dot [NonUnitalNonAssocSemiring α] (i : Nat) (c x y z : Int) (x0 y0 z0 : SDim)
    (hg : ∀ d ∈ [x0, y0, z0], GoodDim d) (h0 : SameBounds y0 x0) (h1 : SameBounds z0 x0)
    (hr : GoodResult (einScal c) (.binary (· * ·)
      (.binary (· + ·) (.op (einVec x x0 i)) (.op (einVec y y0 i))) (.op (einVec z z0 i)) : EinExpr α))
    (m : Mem α) :
    ∃ m', einReduce (· + ·) (einScal c) (.binary (· * ·)
        (.binary (· + ·) (.op (einVec x x0 i)) (.op (einVec y y0 i))) (.op (einVec z z0 i))) m = some m' ∧
      m' c = m c + ∑ t ∈ Finset.Ico x0.val.min (x0.val.min + x0.val.extent),
          (vecAt m x x0 t + vecAt m y y0 t) * vecAt m z z0 t ∧
      ∀ p, p ≠ c → m' p = m p := by
  obtain ⟨m', hm', hs, hframe⟩ := einReduce_sum1 (B := fun _ => (x0.val.min, x0.val.extent)) (m := m) (by
    intro o ho
    simp only [leaves, List.cons_append, List.nil_append, List.mem_cons, List.not_mem_nil, or_false] at ho
    rcases ho with rfl | rfl | rfl | rfl
    · exact ⟨hasBounds_scal, typed_scal⟩
    · exact ⟨hasBounds_vec ⟨rfl, rfl⟩, typed_vec (hg _ (by simp))⟩
    · exact ⟨hasBounds_vec h0, typed_vec (hg _ (by simp))⟩
    · exact ⟨hasBounds_vec h1, typed_vec (hg _ (by simp))⟩) hr (lb := c) (ld := []) rfl i
    (by simp [einScal])
    ⟨einVec x x0 i, by simp [leaves], uses_vec.2 rfl⟩
    (by
      intro o ho t hu
      simp only [leaves, List.cons_append, List.nil_append, List.mem_cons, List.not_mem_nil, or_false] at ho
      rcases ho with rfl | rfl | rfl <;> rw [uses_vec] at hu <;> exact Or.inl hu)
  refine ⟨m', hm', ?_, ?_⟩
  · have := hs (fun _ => 0) (by intro t ht; simp [einScal] at ht) (fun _ _ => rfl)
    have hi := lt_loopRank (ops := (einScal c : EinOp α) :: leaves (.binary (· * ·)
        (.binary (· + ·) (.op (einVec x x0 i)) (.op (einVec y y0 i))) (.op (einVec z z0 i)))) (k := i)
      (o := einVec x x0 i) (by simp [leaves]) (by simp [einVec])
    simp only [offsetOf, List.map_nil, add_zero] at this
    simp only [valueAt, valueAt_vec hi, Function.update_self] at this
    exact this
  · intro p hp
    apply hframe
    rintro ⟨b, r, hb, hr, rfl⟩
    simp only [Option.some.injEq] at hb
    subst hb
    exact hp (by simp [offsetOf])

/-- C41: `ein_reduce(ein<>(tr_A) += ein<i, i>(A))` adds the trace of a square matrix. -/
theorem C41_trace [AddCommMonoid α] (i : Nat) (c a : Int) (a0 a1 : SDim)
    (hg : ∀ d ∈ [a0, a1], GoodDim d) (h0 : SameBounds a1 a0)
    (hr : GoodResult (einScal c) (.op (einMat a a0 a1 i i) : EinExpr α)) (m : Mem α) :
    ∃ m', einReduce (· + ·) (einScal c) (.op (einMat a a0 a1 i i)) m = some m' ∧
      m' c = m c + ∑ t ∈ Finset.Ico a0.val.min (a0.val.min + a0.val.extent), matAt m a a0 a1 t t ∧
      ∀ p, p ≠ c → m' p = m p := by
  obtain ⟨m', hm', hs, hframe⟩ := einReduce_sum1 (B := fun _ => (a0.val.min, a0.val.extent)) (m := m) (by
    intro o ho
    simp only [leaves, List.mem_cons, List.not_mem_nil, or_false] at ho
    rcases ho with rfl | rfl
    · exact ⟨hasBounds_scal, typed_scal⟩
    · exact ⟨hasBounds_mat ⟨rfl, rfl⟩ h0, typed_mat (hg _ (by simp)) (hg _ (by simp))⟩) hr
      (lb := c) (ld := []) rfl i (by simp [einScal])
    ⟨einMat a a0 a1 i i, by simp [leaves], uses_mat.2 (Or.inl rfl)⟩
    (by
      intro o ho t hu
      simp only [leaves, List.mem_cons, List.not_mem_nil, or_false] at ho
      subst ho
      rw [uses_mat] at hu
      tauto)
  refine ⟨m', hm', ?_, ?_⟩
  · have := hs (fun _ => 0) (by intro t ht; simp [einScal] at ht) (fun _ _ => rfl)
    have hi := lt_loopRank (ops := (einScal c : EinOp α) :: leaves (.op (einMat a a0 a1 i i))) (k := i)
      (o := einMat a a0 a1 i i) (by simp [leaves]) (by simp [einMat])
    simp only [offsetOf, List.map_nil, add_zero] at this
    simp only [valueAt_mat hi hi, Function.update_self] at this
    exact this
  · intro p hp
    apply hframe
    rintro ⟨b, r, hb, hr, rfl⟩
    simp only [Option.some.injEq] at hb
    subst hb
    exact hp (by simp [offsetOf])

/-- An assignment whose result uses every loop variable. -/
theorem einReduce_assign0 {lhs : EinOp α} {rhs : EinExpr α} {m : Mem α} {B : Nat → Int × Int}
    (h : ∀ o ∈ lhs :: leaves rhs, HasBounds B o ∧ OpTyped o ∧ NonNeg (einDims o.op) ∧ OpBacked o)
    (hr : GoodResult lhs rhs) {lb : Int} {ld : List SDim} (hl : lhs.op = .arr (some lb) ld)
    (hu : ∀ o ∈ leaves rhs, ∀ t, OpUses o t → t ∈ lhs.is) :
    ∃ m', einReduce (fun _ y => y) lhs rhs m = some m' ∧
      (∀ fixed : Nat → Int, (∀ t ∈ lhs.is, (B t).1 ≤ fixed t ∧ fixed t < (B t).1 + (B t).2) →
        (∀ t, t ∉ lhs.is → fixed t = 0) →
        m' (lb + offsetOf (ld.map SDim.val) (lhs.is.map fixed)) =
          valueAt m ((List.range (loopRank (lhs :: leaves rhs))).map fixed) rhs) ∧
      ∀ p, ¬ OpElement lhs p → m' p = m p := by
  obtain ⟨hin, ha, hun, ht⟩ := einInput_of h hr
  obtain ⟨m', hm', hs, hframe⟩ := C41_assign lhs rhs m hin ha lb ld hl
  refine ⟨m', hm', ?_, hframe⟩
  intro fixed hf h0
  have hul : ∀ t, t ∈ lhs.is → OpUses lhs t := by
    intro t ht'
    obtain ⟨op, is⟩ := lhs
    simp only at hl
    subst hl
    exact ht'
  have hmem := loop_enum0 hun ht lhs.is (fun t ht' => lt_loopRank (by simp) ht') fixed
    (by
      intro t _
      constructor
      · rintro ⟨o, ho, hu'⟩
        rcases List.mem_cons.1 ho with rfl | ho
        · exact hf t (opUses_mem hu')
        · exact hf t (hu o ho t hu')
      · intro hn
        exact h0 t fun ht' => hn lhs (by simp) (hul t ht'))
    (by
      intro o ho t hu'
      rcases List.mem_cons.1 ho with rfl | ho
      · exact (opUses_mem hu')
      · exact hu o ho t hu')
  have hbox : InBox (ld.map SDim.val) (lhs.is.map fixed) := by
    have htl := ht lhs (by simp)
    have hBl := (h lhs (by simp)).1
    obtain ⟨op, is⟩ := lhs
    simp only at hl
    subst hl
    rw [inBox_iff_get]
    refine ⟨by rw [List.length_map, List.length_map]; exact htl.1, fun p d x hd hx => ?_⟩
    rw [List.getElem?_map, Option.map_eq_some_iff] at hx
    obtain ⟨t, ht', rfl⟩ := hx
    have := hBl p t d ht' hd
    have := hf t (List.mem_of_getElem? ht')
    omega
  exact hs _ hbox _ hmem

/-- C41: `ein_reduce(ein<i>(diag_A) = ein<i, i>(A))` assigns the diagonal of a square matrix. -/
theorem C41_diagonal (i : Nat) (c a : Int) (c0 a0 a1 : SDim)
    (hg : ∀ d ∈ [c0, a0, a1], GoodDim d) (h0 : SameBounds a0 c0) (h1 : SameBounds a1 c0)
    (hr : GoodResult (einVec c c0 i) (.op (einMat a a0 a1 i i) : EinExpr α)) (m : Mem α) :
    ∃ m', einReduce (fun _ y => y) (einVec c c0 i) (.op (einMat a a0 a1 i i)) m = some m' ∧
      (∀ x, inDim c0 x → vecAt m' c c0 x = matAt m a a0 a1 x x) ∧
      ∀ p, ¬ OpElement (einVec c c0 i : EinOp α) p → m' p = m p := by
  obtain ⟨m', hm', hs, hframe⟩ := einReduce_assign0 (B := fun _ => (c0.val.min, c0.val.extent)) (m := m) (by
    intro o ho
    simp only [leaves, List.mem_cons, List.not_mem_nil, or_false] at ho
    rcases ho with rfl | rfl
    · exact ⟨hasBounds_vec ⟨rfl, rfl⟩, typed_vec (hg _ (by simp))⟩
    · exact ⟨hasBounds_mat h0 h1, typed_mat (hg _ (by simp)) (hg _ (by simp))⟩) hr
      (lb := c) (ld := [c0]) rfl
    (by
      intro o ho t hu
      simp only [leaves, List.mem_cons, List.not_mem_nil, or_false] at ho
      subst ho
      rw [uses_mat] at hu
      simp only [einVec, List.mem_cons, List.not_mem_nil, or_false]
      tauto)
  refine ⟨m', hm', ?_, hframe⟩
  intro x hx
  have := hs (fun t => if t = i then x else 0) (by
    intro t ht
    simp only [einVec, List.mem_cons, List.not_mem_nil, or_false] at ht
    subst ht
    simpa [inDim] using hx) (by
    intro t ht
    simp only [einVec, List.mem_cons, List.not_mem_nil, or_false] at ht
    simp [ht])
  have hi := lt_loopRank (ops := (einVec c c0 i : EinOp α) :: leaves (.op (einMat a a0 a1 i i))) (k := i)
    (o := einMat a a0 a1 i i) (by simp [leaves]) (by simp [einMat])
  rw [show (einVec c c0 i : EinOp α).is.map (fun t => if t = i then x else 0) = [x] from by simp [einVec]] at this
  simp only [offsetOf, List.map_cons, List.map_nil, add_zero] at this
  rw [valueAt_mat hi hi] at this
  simpa [vecAt] using this

/-- C41: `ein_reduce(ein<i, j>(AT) = ein<j, i>(A))` assigns the transpose. -/
theorem C41_transpose (i j : Nat) (hij : i ≠ j) (c a : Int) (c0 c1 a0 a1 : SDim)
    (hg : ∀ d ∈ [c0, c1, a0, a1], GoodDim d) (h0 : SameBounds a0 c1) (h1 : SameBounds a1 c0)
    (hr : GoodResult (einMat c c0 c1 i j) (.op (einMat a a0 a1 j i) : EinExpr α)) (m : Mem α) :
    ∃ m', einReduce (fun _ y => y) (einMat c c0 c1 i j) (.op (einMat a a0 a1 j i)) m = some m' ∧
      (∀ x y, inDim c0 x → inDim c1 y → matAt m' c c0 c1 x y = matAt m a a0 a1 y x) ∧
      ∀ p, ¬ OpElement (einMat c c0 c1 i j : EinOp α) p → m' p = m p := by
  obtain ⟨B, Bi, Bj⟩ : ∃ B : Nat → Int × Int, B i = (c0.val.min, c0.val.extent) ∧
      B j = (c1.val.min, c1.val.extent) :=
    ⟨fun t => if t = i then (c0.val.min, c0.val.extent) else (c1.val.min, c1.val.extent),
      if_pos rfl, by simp [Ne.symm hij]⟩
  obtain ⟨m', hm', hs, hframe⟩ := einReduce_assign0 (B := B) (m := m) (by
    intro o ho
    simp only [leaves, List.mem_cons, List.not_mem_nil, or_false] at ho
    rcases ho with rfl | rfl
    · exact ⟨hasBounds_mat (by rw [Bi]; exact ⟨rfl, rfl⟩) (by rw [Bj]; exact ⟨rfl, rfl⟩),
        typed_mat (hg _ (by simp)) (hg _ (by simp))⟩
    · exact ⟨hasBounds_mat (by rw [Bj]; exact h0) (by rw [Bi]; exact h1),
        typed_mat (hg _ (by simp)) (hg _ (by simp))⟩) hr
      (lb := c) (ld := [c0, c1]) rfl
    (by
      intro o ho t hu
      simp only [leaves, List.mem_cons, List.not_mem_nil, or_false] at ho
      subst ho
      rw [uses_mat] at hu
      simp only [einMat, List.mem_cons, List.not_mem_nil, or_false]
      tauto)
  refine ⟨m', hm', ?_, hframe⟩
  intro x y hx hy
  obtain ⟨fixed, fi, fj, f0⟩ : ∃ fixed : Nat → Int, fixed i = x ∧ fixed j = y ∧
      ∀ t, t ∉ [i, j] → fixed t = 0 :=
    ⟨fun t => if t = i then x else if t = j then y else 0, if_pos rfl, by simp [Ne.symm hij], by
      intro t ht
      simp only [List.mem_cons, List.not_mem_nil, or_false, not_or] at ht
      simp [ht.1, ht.2]⟩
  have := hs fixed (by
    intro t ht
    simp only [einMat, List.mem_cons, List.not_mem_nil, or_false] at ht
    rcases ht with rfl | rfl
    · rw [Bi, fi]; exact hx
    · rw [Bj, fj]; exact hy) f0
  have hi := lt_loopRank (ops := (einMat c c0 c1 i j : EinOp α) :: leaves (.op (einMat a a0 a1 j i))) (k := i)
    List.mem_cons_self (by simp [einMat])
  have hj := lt_loopRank (ops := (einMat c c0 c1 i j : EinOp α) :: leaves (.op (einMat a a0 a1 j i))) (k := j)
    List.mem_cons_self (by simp [einMat])
  rw [show (einMat c c0 c1 i j : EinOp α).is.map fixed = [x, y] from by simp [einMat, fi, fj]] at this
  simp only [offsetOf, List.map_cons, List.map_nil, add_zero, ← add_assoc] at this
  rw [valueAt_mat hj hi, fi, fj] at this
  exact this

end Nda
