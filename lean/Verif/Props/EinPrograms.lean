import Verif.Lemmas.EinPrograms
import Mathlib.Tactic.Ring
import Mathlib.Tactic.NoncommRing
import Mathlib.Algebra.Field.GeomSum
import Mathlib.RingTheory.RootsOfUnity.PrimitiveRoots
/-
C96: the reductions of README.md and test/ein_reduce.cpp with callable operands, maxima of planes and discrete Fourier
transforms.
-/
namespace Nda
open Spec
variable {α : Type}

/-! ### The Levi-Civita symbol -/

theorem sgnOf_sq (i j : Int) : sgnOf (i - j) = if i = j then 0 else if i < j then -1 else 1 := by
  unfold sgnOf
  split <;> split <;> omega

theorem product_cons (x : Int) (l : List Int) : product (x :: l) = x * product l := by
  simp [product]

theorem product_sgn (x : Int) (l : List Int) : product (l.map fun i => sgnOf (i - x)) =
    if x ∈ l then 0 else (-1) ^ (l.filter fun y => y < x).length := by
  induction l with
  | nil => simp [product]
  | cons y l ih =>
    rw [List.map_cons, product_cons, ih, sgnOf_sq]
    by_cases h : y = x
    · subst h; simp
    · have h' : x ≠ y := fun e => h e.symm
      rw [if_neg h]
      simp only [List.mem_cons, h', false_or]
      by_cases hm : x ∈ l
      · rw [if_pos hm, if_pos hm]; simp
      · rw [if_neg hm, if_neg hm]
        by_cases hlt : y < x
        · rw [if_pos hlt, List.filter_cons_of_pos (by simpa using hlt), List.length_cons, pow_succ]
          ring
        · rw [if_neg hlt, List.filter_cons_of_neg (by simpa using hlt), one_mul]

/-- C96: `epsilon(is...)` is the Levi-Civita symbol for any number of indices: 0 if two indices are equal, otherwise
1 or -1 as the number of pairs in the wrong order is even or odd.  The `epsilon3` of README.md is the same function. -/
theorem C96_epsilon (l : List Int) :
    epsilonOf l = (if l.Nodup then (-1) ^ inversions l else 0) ∧
      ∀ i j k, l = [i, j, k] → epsilon3Of i j k = epsilonOf l := by
  constructor
  · induction l with
    | nil => simp [epsilonOf, inversions]
    | cons x l ih =>
      rw [epsilonOf, ih, product_sgn, inversions, pow_add]
      by_cases h : x ∈ l <;> by_cases hn : l.Nodup <;> simp [h, hn]
  · rintro i j k rfl
    simp only [epsilonOf, epsilon3Of, List.map_cons, List.map_nil, product_cons]
    simp [product, mul_assoc]

/-! ### Cross products -/

/-- C96: `ein_reduce(ein<i, l>(crosses) += ein<i, j, k>(epsilon3) * ein<j, l>(xs) * ein<k, l>(ys))` adds the cross
product of each pair of vectors. -/
theorem C96_cross [Ring α] (i j k l : Nat) (hd : [i, j, k, l].Nodup) (c a b : Int) (c0 c1 a0 a1 b0 b1 : SDim)
    (hg : ∀ d ∈ [c0, c1, a0, a1, b0, b1], GoodDim d) (h3 : Three c0 ∧ Three a0 ∧ Three b0)
    (h1 : SameBounds a1 c1) (h2 : SameBounds b1 c1)
    (hr : GoodResult (einMat c c0 c1 i l) (crossExpr (.arr (some a) [a0, a1]) (.arr (some b) [b0, b1]) i j k l : EinExpr α))
    (m : Mem α) :
    ∃ m', einReduce (· + ·) (einMat c c0 c1 i l)
        (crossExpr (.arr (some a) [a0, a1]) (.arr (some b) [b0, b1]) i j k l) m = some m' ∧
      (∀ n, inDim c1 n →
        let x := fun t => matAt m a a0 a1 t n
        let y := fun t => matAt m b b0 b1 t n
        matAt m' c c0 c1 0 n = matAt m c c0 c1 0 n + (x 1 * y 2 - x 2 * y 1) ∧
        matAt m' c c0 c1 1 n = matAt m c c0 c1 1 n + (x 2 * y 0 - x 0 * y 2) ∧
        matAt m' c c0 c1 2 n = matAt m c c0 c1 2 n + (x 0 * y 1 - x 1 * y 0)) ∧
      ∀ p, ¬ OpElement (einMat c c0 c1 i l : EinOp α) p → m' p = m p := by
  simp only [List.nodup_cons, List.mem_cons, List.not_mem_nil, or_false, not_or, not_false_eq_true, List.nodup_nil,
    and_true] at hd
  obtain ⟨⟨hij, hik, hil⟩, ⟨hjk, hjl⟩, hkl⟩ := hd
  obtain ⟨⟨hc0, hc0'⟩, ⟨ha0, ha0'⟩, ⟨hb0, hb0'⟩⟩ := h3
  obtain ⟨B, Bi, Bj, Bk, Bl⟩ : ∃ B : Nat → Int × Int, B i = (0, 3) ∧ B j = (0, 3) ∧ B k = (0, 3) ∧
      B l = (c1.val.min, c1.val.extent) :=
    ⟨fun t => if t = l then (c1.val.min, c1.val.extent) else (0, 3), if_neg hil, if_neg hjl, if_neg hkl, if_pos rfl⟩
  have hleaves : leaves (crossExpr (.arr (some a) [a0, a1]) (.arr (some b) [b0, b1]) i j k l : EinExpr α) =
      [⟨.fn (fn3 fun a b c => (epsilon3Of a b c : α)), [i, j, k]⟩, einMat a a0 a1 j l, einMat b b0 b1 k l] := rfl
  obtain ⟨m', hm', hs, hframe⟩ := einReduce_sums (B := B) (m := m) (by
    intro o ho
    rw [hleaves] at ho
    simp only [List.mem_cons, List.not_mem_nil, or_false] at ho
    rcases ho with rfl | rfl | rfl | rfl
    · exact ⟨hasBounds_mat (by rw [Bi]; exact ⟨hc0, hc0'⟩) (by rw [Bl]; exact ⟨rfl, rfl⟩),
        typed_mat (hg _ (by simp)) (hg _ (by simp))⟩
    · exact fn_operand _ _
    · exact ⟨hasBounds_mat (by rw [Bj]; exact ⟨ha0, ha0'⟩) (by rw [Bl]; exact h1),
        typed_mat (hg _ (by simp)) (hg _ (by simp))⟩
    · exact ⟨hasBounds_mat (by rw [Bk]; exact ⟨hb0, hb0'⟩) (by rw [Bl]; exact h2),
        typed_mat (hg _ (by simp)) (hg _ (by simp))⟩) hr (lb := c) (ld := [c0, c1]) rfl (ks := [j, k])
    (by simp [hjk])
    (by
      intro t ht
      rw [hleaves]
      simp only [List.mem_cons, List.not_mem_nil, or_false] at ht
      rcases ht with rfl | rfl
      · exact ⟨by simp [einMat, Ne.symm hij, hjl], einMat a a0 a1 t l, by simp, uses_mat.2 (Or.inl rfl)⟩
      · exact ⟨by simp [einMat, Ne.symm hik, hkl], einMat b b0 b1 t l, by simp, uses_mat.2 (Or.inl rfl)⟩)
    (by
      intro o ho t hu
      rw [hleaves] at ho
      simp only [List.mem_cons, List.not_mem_nil, or_false] at ho
      simp only [einMat, List.mem_cons, List.not_mem_nil, or_false]
      rcases ho with rfl | rfl | rfl
      · exact absurd hu (by simp [OpUses])
      · rw [uses_mat] at hu; tauto
      · rw [uses_mat] at hu; tauto)
  refine ⟨m', hm', ?_, hframe⟩
  intro n hn x y
  have key : ∀ u, 0 ≤ u → u < 3 → matAt m' c c0 c1 u n = matAt m c c0 c1 u n +
      ∑ p ∈ Finset.Ico (0 : Int) 3, ∑ q ∈ Finset.Ico (0 : Int) 3, (epsilon3Of u p q : α) * x p * y q := by
    intro u hu0 hu3
    obtain ⟨fixed, fi, fl, f0⟩ : ∃ fixed : Nat → Int, fixed i = u ∧ fixed l = n ∧ ∀ t, t ∉ [i, l] → fixed t = 0 :=
      ⟨fun t => if t = i then u else if t = l then n else 0, if_pos rfl, by simp [Ne.symm hil], by
        intro t ht
        simp only [List.mem_cons, List.not_mem_nil, or_false, not_or] at ht
        simp [ht.1, ht.2]⟩
    have := hs fixed (by
      intro t ht
      simp only [einMat, List.mem_cons, List.not_mem_nil, or_false] at ht
      rcases ht with rfl | rfl
      · rw [Bi, fi]; exact ⟨hu0, by simpa using hu3⟩
      · rw [Bl, fl]; exact hn) f0
    rw [show (einMat c c0 c1 i l : EinOp α).is.map fixed = [u, n] from by simp [einMat, fi, fl], envs_sum2] at this
    set N := loopRank ((einMat c c0 c1 i l : EinOp α) ::
      leaves (crossExpr (.arr (some a) [a0, a1]) (.arr (some b) [b0, b1]) i j k l)) with hN
    have hi : i < N := lt_loopRank (o := einMat c c0 c1 i l) (by simp) (by simp [einMat])
    have hl : l < N := lt_loopRank (o := einMat c c0 c1 i l) (by simp) (by simp [einMat])
    have hj : j < N := lt_loopRank (o := einMat a a0 a1 j l) (by rw [hleaves]; simp) (by simp [einMat])
    have hk : k < N := lt_loopRank (o := einMat b b0 b1 k l) (by rw [hleaves]; simp) (by simp [einMat])
    have hval : ∀ e : Nat → Int, valueAt m ((List.range N).map e)
        (crossExpr (.arr (some a) [a0, a1]) (.arr (some b) [b0, b1]) i j k l : EinExpr α) =
        (epsilon3Of (e i) (e j) (e k) : α) * matAt m a a0 a1 (e j) (e l) * matAt m b b0 b1 (e k) (e l) := by
      intro e
      have e1 := valueAt_mat (m := m) (b := a) (d0 := a0) (d1 := a1) hj hl e
      have e2 := valueAt_mat (m := m) (b := b) (d0 := b0) (d1 := b1) hk hl e
      rw [← e1, ← e2]
      show fn3 (fun a b c => (epsilon3Of a b c : α)) (pick [i, j, k] ((List.range N).map e)) * _ * _ = _
      rw [pick_map_range (by
        intro t ht
        simp only [List.mem_cons, List.not_mem_nil, or_false] at ht
        rcases ht with rfl | rfl | rfl <;> assumption)]
      rfl
    simp only [hval, Bj, Bk, Function.update_self, Function.update_of_ne hik, Function.update_of_ne hij,
      Function.update_of_ne hjk, Function.update_of_ne (Ne.symm hkl), Function.update_of_ne (Ne.symm hjl), fi, fl,
      zero_add] at this
    simp only [offsetOf, List.map_cons, List.map_nil, add_zero, ← add_assoc] at this
    exact this
  have h03 : Finset.Ico (0 : Int) 3 = {0, 1, 2} := by decide
  refine ⟨?_, ?_, ?_⟩
  · rw [key 0 (by omega) (by omega), h03]
    simp [epsilon3Of, sgnOf]
    noncomm_ring
  · rw [key 1 (by omega) (by omega), h03]
    simp [epsilon3Of, sgnOf]
    noncomm_ring
  · rw [key 2 (by omega) (by omega), h03]
    simp [epsilon3Of, sgnOf]
    noncomm_ring

/-- `ein<l>(d) += ein<i, l>(A) * ein<i, l>(C)`: the dot products of the columns. -/
theorem column_dots [NonUnitalNonAssocSemiring α] (i l : Nat) (hil : i ≠ l) (d a c : Int) (d0 a0 a1 c0 c1 : SDim)
    (hg : ∀ d ∈ [d0, a0, a1, c0, c1], GoodDim d) (h0 : SameBounds c0 a0) (h1 : SameBounds a1 d0) (h2 : SameBounds c1 d0)
    (hr : GoodResult (einVec d d0 l)
      (.binary (· * ·) (.op (einMat a a0 a1 i l)) (.op (einMat c c0 c1 i l)) : EinExpr α)) (m : Mem α) :
    ∃ m', einReduce (· + ·) (einVec d d0 l)
        (.binary (· * ·) (.op (einMat a a0 a1 i l)) (.op (einMat c c0 c1 i l))) m = some m' ∧
      (∀ n, inDim d0 n → vecAt m' d d0 n = vecAt m d d0 n +
        ∑ t ∈ Finset.Ico a0.val.min (a0.val.min + a0.val.extent), matAt m a a0 a1 t n * matAt m c c0 c1 t n) ∧
      ∀ p, ¬ OpElement (einVec d d0 l : EinOp α) p → m' p = m p := by
  obtain ⟨B, Bi, Bl⟩ : ∃ B : Nat → Int × Int, B i = (a0.val.min, a0.val.extent) ∧
      B l = (d0.val.min, d0.val.extent) :=
    ⟨fun t => if t = i then (a0.val.min, a0.val.extent) else (d0.val.min, d0.val.extent),
      if_pos rfl, by simp [Ne.symm hil]⟩
  obtain ⟨m', hm', hs, hframe⟩ := einReduce_sum1 (B := B) (m := m) (by
    intro o ho
    simp only [leaves, List.cons_append, List.nil_append, List.mem_cons, List.not_mem_nil, or_false] at ho
    rcases ho with rfl | rfl | rfl
    · exact ⟨hasBounds_vec (by rw [Bl]; exact ⟨rfl, rfl⟩), typed_vec (hg _ (by simp))⟩
    · exact ⟨hasBounds_mat (by rw [Bi]; exact ⟨rfl, rfl⟩) (by rw [Bl]; exact h1),
        typed_mat (hg _ (by simp)) (hg _ (by simp))⟩
    · exact ⟨hasBounds_mat (by rw [Bi]; exact h0) (by rw [Bl]; exact h2),
        typed_mat (hg _ (by simp)) (hg _ (by simp))⟩) hr (lb := d) (ld := [d0]) rfl i
    (by simp [einVec, hil])
    ⟨einMat a a0 a1 i l, by simp [leaves], uses_mat.2 (Or.inl rfl)⟩
    (by
      intro o ho t hu
      simp only [leaves, List.cons_append, List.nil_append, List.mem_cons, List.not_mem_nil, or_false] at ho
      simp only [einVec, List.mem_cons, List.not_mem_nil, or_false]
      rcases ho with rfl | rfl <;> rw [uses_mat] at hu <;> tauto)
  refine ⟨m', hm', ?_, hframe⟩
  intro x hx
  obtain ⟨fixed, fl, f0⟩ : ∃ fixed : Nat → Int, fixed l = x ∧ ∀ t, t ∉ [l] → fixed t = 0 :=
    ⟨fun t => if t = l then x else 0, if_pos rfl, by
      intro t ht
      simp only [List.mem_cons, List.not_mem_nil, or_false] at ht
      simp [ht]⟩
  have := hs fixed (by
    intro t ht
    simp only [einVec, List.mem_cons, List.not_mem_nil, or_false] at ht
    subst ht
    rw [Bl, fl]; exact hx) f0
  have hi := lt_loopRank (ops := (einVec d d0 l : EinOp α) ::
    leaves (.binary (· * ·) (.op (einMat a a0 a1 i l)) (.op (einMat c c0 c1 i l)))) (k := i)
    (o := einMat a a0 a1 i l) (by simp [leaves]) (by simp [einMat])
  have hl := lt_loopRank (ops := (einVec d d0 l : EinOp α) ::
    leaves (.binary (· * ·) (.op (einMat a a0 a1 i l)) (.op (einMat c c0 c1 i l)))) (k := l)
    (o := einMat a a0 a1 i l) (by simp [leaves]) (by simp [einMat])
  rw [show (einVec d d0 l : EinOp α).is.map fixed = [x] from by simp [einVec, fl]] at this
  simp only [offsetOf, List.map_cons, List.map_nil, add_zero, Bi] at this
  simp only [valueAt, valueAt_mat hi hl, Function.update_self,
    Function.update_of_ne (Ne.symm hil), fl] at this
  exact this

/-- An element of a matrix. -/
theorem element_mat {b : Int} {d0 d1 : SDim} {i j : Nat} {x y : Int} (hx : inDim d0 x) (hy : inDim d1 y) :
    OpElement (einMat b d0 d1 i j : EinOp α) (b + (x - d0.val.min) * d0.val.stride + (y - d1.val.min) * d1.val.stride) :=
  ⟨b, [x, y], rfl, ⟨⟨hx.1, hx.2⟩, ⟨hy.1, hy.2⟩, trivial⟩, by simp [offsetOf, add_assoc]⟩

theorem element_vec {b : Int} {d0 : SDim} {i : Nat} {x : Int} (hx : inDim d0 x) :
    OpElement (einVec b d0 i : EinOp α) (b + (x - d0.val.min) * d0.val.stride) :=
  ⟨b, [x], rfl, ⟨⟨hx.1, hx.2⟩, trivial⟩, by simp [offsetOf]⟩

/-- C96: cross products computed into zeros are orthogonal to their factors: the reduction
`ein<l>(d) += ein<i, l>(xs) * ein<i, l>(crosses)` that follows adds nothing, and neither does the one with `ys`. -/
theorem C96_orthogonal [CommRing α] (i j k l : Nat) (hd : [i, j, k, l].Nodup) (c a b d : Int)
    (c0 c1 a0 a1 b0 b1 d0 : SDim) (hg : ∀ d ∈ [c0, c1, a0, a1, b0, b1, d0], GoodDim d)
    (h3 : Three c0 ∧ Three a0 ∧ Three b0) (h1 : SameBounds a1 c1) (h2 : SameBounds b1 c1) (h4 : SameBounds d0 c1)
    (hr : GoodResult (einMat c c0 c1 i l) (crossExpr (.arr (some a) [a0, a1]) (.arr (some b) [b0, b1]) i j k l : EinExpr α))
    (hra : GoodResult (einVec d d0 l)
      (.binary (· * ·) (.op (einMat a a0 a1 i l)) (.op (einMat c c0 c1 i l)) : EinExpr α))
    (hrb : GoodResult (einVec d d0 l)
      (.binary (· * ·) (.op (einMat b b0 b1 i l)) (.op (einMat c c0 c1 i l)) : EinExpr α)) (m : Mem α)
    (h0 : ∀ t n, inDim c0 t → inDim c1 n → matAt m c c0 c1 t n = 0) :
    ∃ m1 ma mb, einReduce (· + ·) (einMat c c0 c1 i l)
        (crossExpr (.arr (some a) [a0, a1]) (.arr (some b) [b0, b1]) i j k l) m = some m1 ∧
      einReduce (· + ·) (einVec d d0 l)
        (.binary (· * ·) (.op (einMat a a0 a1 i l)) (.op (einMat c c0 c1 i l))) m1 = some ma ∧
      einReduce (· + ·) (einVec d d0 l)
        (.binary (· * ·) (.op (einMat b b0 b1 i l)) (.op (einMat c c0 c1 i l))) m1 = some mb ∧
      ∀ n, inDim d0 n → vecAt ma d d0 n = vecAt m1 d d0 n ∧ vecAt mb d d0 n = vecAt m1 d d0 n := by
  obtain ⟨m1, e1, hc, hf⟩ := C96_cross i j k l hd c a b c0 c1 a0 a1 b0 b1 (fun d hd => hg d (by
    rw [List.mem_cons, List.mem_cons, List.mem_cons, List.mem_cons, List.mem_cons, List.mem_singleton] at hd
    rcases hd with h | h | h | h | h | h <;> simp [h])) h3
    h1 h2 hr m
  simp only [List.nodup_cons, List.mem_cons, List.not_mem_nil, or_false, not_or] at hd
  have hil : i ≠ l := hd.1.2.2
  obtain ⟨⟨hc0, hc0'⟩, ⟨ha0, ha0'⟩, ⟨hb0, hb0'⟩⟩ := h3
  have hda : SameBounds a1 d0 := ⟨h1.1.trans h4.1.symm, h1.2.trans h4.2.symm⟩
  have hdb : SameBounds b1 d0 := ⟨h2.1.trans h4.1.symm, h2.2.trans h4.2.symm⟩
  have hdc : SameBounds c1 d0 := ⟨h4.1.symm, h4.2.symm⟩
  obtain ⟨ma, ea, va, -⟩ := column_dots i l hil d a c d0 a0 a1 c0 c1 (fun d hd => hg d (by
    rw [List.mem_cons, List.mem_cons, List.mem_cons, List.mem_cons, List.mem_singleton] at hd
    rcases hd with h | h | h | h | h <;> simp [h]))
    ⟨by omega, by omega⟩ hda hdc hra m1
  obtain ⟨mb, eb, vb, -⟩ := column_dots i l hil d b c d0 b0 b1 c0 c1 (fun d hd => hg d (by
    rw [List.mem_cons, List.mem_cons, List.mem_cons, List.mem_cons, List.mem_singleton] at hd
    rcases hd with h | h | h | h | h <;> simp [h]))
    ⟨by omega, by omega⟩ hdb hdc hrb m1
  refine ⟨m1, ma, mb, e1, ea, eb, fun n hn => ?_⟩
  have hn1 : inDim c1 n := by unfold inDim at hn ⊢; rw [← h4.1, ← h4.2]; exact hn
  have hna : inDim a1 n := by unfold inDim at hn1 ⊢; rw [h1.1, h1.2]; exact hn1
  have hnb : inDim b1 n := by unfold inDim at hn1 ⊢; rw [h2.1, h2.2]; exact hn1
  have hsep := hr.2
  have ka : ∀ t, 0 ≤ t → t < 3 → matAt m1 a a0 a1 t n = matAt m a a0 a1 t n := by
    intro t h h'
    refine hf _ fun he => hsep (einMat a a0 a1 j l) (List.mem_cons_of_mem _ List.mem_cons_self) _ he ?_
    exact element_mat ⟨by omega, by omega⟩ hna
  have kb : ∀ t, 0 ≤ t → t < 3 → matAt m1 b b0 b1 t n = matAt m b b0 b1 t n := by
    intro t h h'
    refine hf _ fun he => hsep (einMat b b0 b1 k l)
      (List.mem_cons_of_mem _ (List.mem_cons_of_mem _ List.mem_cons_self)) _ he ?_
    exact element_mat ⟨by omega, by omega⟩ hnb
  obtain ⟨k0, k1, k2⟩ := hc n hn1
  dsimp only at k0 k1 k2
  rw [h0 _ _ ⟨by omega, by omega⟩ hn1] at k0 k1 k2
  have h03 : Finset.Ico (0 : Int) (0 + 3) = {0, 1, 2} := by decide
  have s3 : ∀ f : Int → α, ∑ t ∈ Finset.Ico (0 : Int) (0 + 3), f t = f 0 + f 1 + f 2 := by
    intro f
    rw [h03]
    simp [add_assoc]
  rw [va n hn, vb n hn, ha0, ha0', hb0, hb0', s3, s3, k0, k1, k2, ka 0 (by omega) (by omega),
    ka 1 (by omega) (by omega), ka 2 (by omega) (by omega), kb 0 (by omega) (by omega), kb 1 (by omega) (by omega),
    kb 2 (by omega) (by omega)]
  generalize matAt m a a0 a1 0 n = x0, matAt m a a0 a1 1 n = x1, matAt m a a0 a1 2 n = x2,
    matAt m b b0 b1 0 n = y0, matAt m b b0 b1 1 n = y1, matAt m b b0 b1 2 n = y2
  constructor <;> ring

/-! ### Maxima of planes -/

/-- C96: `auto r = ein<k>(max_xy); ein_reduce(r = max(r, ein<i, j, k>(volume)))` leaves in `max_xy(z)` the largest of
its old value and the elements of the plane `z`. -/
theorem C96_max [LinearOrder α] (i j k : Nat) (hd : [i, j, k].Nodup) (r v : Int) (r0 v0 v1 v2 : SDim)
    (hg : ∀ d ∈ [r0, v0, v1, v2], GoodDim d) (h2 : SameBounds v2 r0)
    (hr : GoodResult (einVec r r0 k) (.op (einVol v v0 v1 v2 i j k) : EinExpr α)) (m : Mem α) :
    ∃ m', planeMax (einVec r r0 k) (einVol v v0 v1 v2 i j k) m = some m' ∧
      (∀ z, inDim r0 z → IsGreatest
        {u | u = vecAt m r r0 z ∨ ∃ x y, inDim v0 x ∧ inDim v1 y ∧ u = volAt m v v0 v1 v2 x y z} (vecAt m' r r0 z)) ∧
      ∀ p, ¬ OpElement (einVec r r0 k : EinOp α) p → m' p = m p := by
  simp only [List.nodup_cons, List.mem_cons, List.not_mem_nil, or_false, not_or, not_false_eq_true, List.nodup_nil,
    and_true] at hd
  obtain ⟨⟨hij, hik⟩, hjk⟩ := hd
  obtain ⟨B, Bi, Bj, Bk⟩ : ∃ B : Nat → Int × Int, B i = (v0.val.min, v0.val.extent) ∧
      B j = (v1.val.min, v1.val.extent) ∧ B k = (r0.val.min, r0.val.extent) :=
    ⟨fun t => if t = i then (v0.val.min, v0.val.extent) else
      if t = j then (v1.val.min, v1.val.extent) else (r0.val.min, r0.val.extent),
      if_pos rfl, by simp [Ne.symm hij], by simp [Ne.symm hik, Ne.symm hjk]⟩
  obtain ⟨m', hm', hs, hframe⟩ := einReduce_maxes (B := B) (m := m) (by
    intro o ho
    simp only [leaves, List.mem_cons, List.not_mem_nil, or_false] at ho
    rcases ho with rfl | rfl
    · exact ⟨hasBounds_vec (by rw [Bk]; exact ⟨rfl, rfl⟩), typed_vec (hg _ (by simp))⟩
    · exact ⟨hasBounds_vol (by rw [Bi]; exact ⟨rfl, rfl⟩) (by rw [Bj]; exact ⟨rfl, rfl⟩) (by rw [Bk]; exact h2),
        typed_vol (hg _ (by simp)) (hg _ (by simp)) (hg _ (by simp))⟩) hr (lb := r) (ld := [r0]) rfl (ks := [i, j])
    (by simp [hij])
    (by
      intro t ht
      simp only [List.mem_cons, List.not_mem_nil, or_false] at ht
      rcases ht with rfl | rfl
      · exact ⟨by simp [einVec, hik], einVol v v0 v1 v2 t j k, by simp [leaves], uses_vol.2 (by simp)⟩
      · exact ⟨by simp [einVec, hjk], einVol v v0 v1 v2 i t k, by simp [leaves], uses_vol.2 (by simp)⟩)
    (by
      intro o ho t hu
      simp only [leaves, List.mem_cons, List.not_mem_nil, or_false] at ho
      subst ho
      rw [uses_vol] at hu
      simp only [einVec, List.mem_cons, List.not_mem_nil, or_false]
      tauto)
  refine ⟨m', hm', ?_, hframe⟩
  intro z hz
  obtain ⟨fixed, fk, f0⟩ : ∃ fixed : Nat → Int, fixed k = z ∧ ∀ t, t ∉ [k] → fixed t = 0 :=
    ⟨fun t => if t = k then z else 0, if_pos rfl, by
      intro t ht
      simp only [List.mem_cons, List.not_mem_nil, or_false] at ht
      simp [ht]⟩
  have := hs fixed (by
    intro t ht
    simp only [einVec, List.mem_cons, List.not_mem_nil, or_false] at ht
    subst ht
    rw [Bk, fk]; exact hz) f0
  rw [show (einVec r r0 k : EinOp α).is.map fixed = [z] from by simp [einVec, fk]] at this
  simp only [offsetOf, List.map_cons, List.map_nil, add_zero] at this
  set N := loopRank ((einVec r r0 k : EinOp α) :: leaves (.op (einVol v v0 v1 v2 i j k))) with hN
  have hi : i < N := lt_loopRank (o := einVol v v0 v1 v2 i j k) (by simp [leaves]) (by simp [einVol])
  have hj : j < N := lt_loopRank (o := einVol v v0 v1 v2 i j k) (by simp [leaves]) (by simp [einVol])
  have hk : k < N := lt_loopRank (o := einVol v v0 v1 v2 i j k) (by simp [leaves]) (by simp [einVol])
  simp only [valueAt_vol hi hj hk] at this
  obtain ⟨t1, t2, t3⟩ := this
  have hnd : [i, j].Nodup := by simp [hij]
  have hkn : k ∉ [i, j] := by simp [Ne.symm hik, Ne.symm hjk]
  constructor
  · rcases t3 with h | ⟨e, he, h⟩
    · exact Or.inl h
    · rw [mem_envs hnd] at he
      have h1 := he.1 i (by simp)
      have h2 := he.1 j (by simp)
      rw [Bi] at h1
      rw [Bj] at h2
      rw [he.2 k hkn, fk] at h
      exact Or.inr ⟨e i, e j, h1, h2, h⟩
  · rintro u (rfl | ⟨x, y, hx, hy, rfl⟩)
    · exact t1
    · have := t2 (Function.update (Function.update fixed i x) j y) ((mem_envs hnd).2 ⟨?_, ?_⟩)
      · rw [Function.update_self, Function.update_of_ne hij, Function.update_self,
          Function.update_of_ne (Ne.symm hjk), Function.update_of_ne (Ne.symm hik), fk] at this
        exact this
      · intro t ht
        simp only [List.mem_cons, List.not_mem_nil, or_false] at ht
        rcases ht with rfl | rfl
        · rw [Function.update_of_ne hij, Function.update_self, Bi]; exact hx
        · rw [Function.update_self, Bj]; exact hy
      · intro t ht
        simp only [List.mem_cons, List.not_mem_nil, or_false, not_or] at ht
        rw [Function.update_of_ne ht.2, Function.update_of_ne ht.1]

/-- C96: if the old values are lower bounds, as `numeric_limits<int>::min()` in test/ein_reduce.cpp:296, the results are
the maxima of the planes; if they are above every element, as 0 for negative elements, they stay as they are. -/
theorem C96_max_initial [LinearOrder α] (i j k : Nat) (hd : [i, j, k].Nodup) (r v : Int) (r0 v0 v1 v2 : SDim)
    (hg : ∀ d ∈ [r0, v0, v1, v2], GoodDim d) (h2 : SameBounds v2 r0) (hne : 0 < v0.val.extent ∧ 0 < v1.val.extent)
    (hr : GoodResult (einVec r r0 k) (.op (einVol v v0 v1 v2 i j k) : EinExpr α)) (m : Mem α) :
    ∃ m', planeMax (einVec r r0 k) (einVol v v0 v1 v2 i j k) m = some m' ∧
      ∀ z, inDim r0 z →
        ((∀ x y, inDim v0 x → inDim v1 y → vecAt m r r0 z ≤ volAt m v v0 v1 v2 x y z) →
          IsGreatest {u | ∃ x y, inDim v0 x ∧ inDim v1 y ∧ u = volAt m v v0 v1 v2 x y z} (vecAt m' r r0 z)) ∧
        ((∀ x y, inDim v0 x → inDim v1 y → volAt m v v0 v1 v2 x y z < vecAt m r r0 z) →
          vecAt m' r r0 z = vecAt m r r0 z ∧
          ¬ IsGreatest {u | ∃ x y, inDim v0 x ∧ inDim v1 y ∧ u = volAt m v v0 v1 v2 x y z} (vecAt m' r r0 z)) := by
  obtain ⟨m', e, h, -⟩ := C96_max i j k hd r v r0 v0 v1 v2 hg h2 hr m
  refine ⟨m', e, fun z hz => ⟨fun hle => ?_, fun hlt => ?_⟩⟩
  · obtain ⟨hm, hu⟩ := h z hz
    refine ⟨?_, fun u hu' => hu (Or.inr hu')⟩
    rcases hm with hm | hm
    · have h1 := hu (Or.inr ⟨v0.val.min, v1.val.min, ⟨le_rfl, by omega⟩, ⟨le_rfl, by omega⟩, rfl⟩)
      have h2 := hle v0.val.min v1.val.min ⟨le_rfl, by omega⟩ ⟨le_rfl, by omega⟩
      exact ⟨v0.val.min, v1.val.min, ⟨le_rfl, by omega⟩, ⟨le_rfl, by omega⟩, le_antisymm (by rw [hm]; exact h2) h1⟩
    · exact hm
  · obtain ⟨hm, hu⟩ := h z hz
    have heq : vecAt m' r r0 z = vecAt m r r0 z := by
      rcases hm with hm | ⟨x, y, hx, hy, hm⟩
      · exact hm
      · exact absurd (hu (Or.inl rfl)) (by rw [hm, not_le]; exact hlt x y hx hy)
    refine ⟨heq, ?_⟩
    rintro ⟨⟨x, y, hx, hy, hm⟩, -⟩
    rw [heq] at hm
    exact absurd (hlt x y hx hy) (by rw [← hm]; exact lt_irrefl _)

/-! ### Outer products and sums of planes -/

/-- C96: `ein_reduce(ein<i, j>(outer) = ein<i>(x) * ein<j>(y))` (test/ein_reduce.cpp:200-215), for any operation. -/
theorem C96_outer (f : α → α → α) (i j : Nat) (hij : i ≠ j) (c x y : Int) (c0 c1 x0 y0 : SDim)
    (hg : ∀ d ∈ [c0, c1, x0, y0], GoodDim d) (h0 : SameBounds x0 c0) (h1 : SameBounds y0 c1)
    (hr : GoodResult (einMat c c0 c1 i j) (.binary f (.op (einVec x x0 i)) (.op (einVec y y0 j)))) (m : Mem α) :
    ∃ m', einReduce (fun _ y => y) (einMat c c0 c1 i j) (.binary f (.op (einVec x x0 i)) (.op (einVec y y0 j))) m =
        some m' ∧
      (∀ a b, inDim c0 a → inDim c1 b → matAt m' c c0 c1 a b = f (vecAt m x x0 a) (vecAt m y y0 b)) ∧
      ∀ p, ¬ OpElement (einMat c c0 c1 i j : EinOp α) p → m' p = m p := by
  obtain ⟨B, Bi, Bj⟩ : ∃ B : Nat → Int × Int, B i = (c0.val.min, c0.val.extent) ∧
      B j = (c1.val.min, c1.val.extent) :=
    ⟨fun t => if t = i then (c0.val.min, c0.val.extent) else (c1.val.min, c1.val.extent),
      if_pos rfl, by simp [Ne.symm hij]⟩
  obtain ⟨m', hm', hs, hframe⟩ := einReduce_assign0 (B := B) (m := m) (by
    intro o ho
    simp only [leaves, List.cons_append, List.nil_append, List.mem_cons, List.not_mem_nil, or_false] at ho
    rcases ho with rfl | rfl | rfl
    · exact ⟨hasBounds_mat (by rw [Bi]; exact ⟨rfl, rfl⟩) (by rw [Bj]; exact ⟨rfl, rfl⟩),
        typed_mat (hg _ (by simp)) (hg _ (by simp))⟩
    · exact ⟨hasBounds_vec (by rw [Bi]; exact h0), typed_vec (hg _ (by simp))⟩
    · exact ⟨hasBounds_vec (by rw [Bj]; exact h1), typed_vec (hg _ (by simp))⟩) hr
      (lb := c) (ld := [c0, c1]) rfl
    (by
      intro o ho t hu
      simp only [leaves, List.cons_append, List.nil_append, List.mem_cons, List.not_mem_nil, or_false] at ho
      simp only [einMat, List.mem_cons, List.not_mem_nil, or_false]
      rcases ho with rfl | rfl <;> rw [uses_vec] at hu <;> tauto)
  refine ⟨m', hm', ?_, hframe⟩
  intro a b ha hb
  obtain ⟨fixed, fi, fj, f0⟩ : ∃ fixed : Nat → Int, fixed i = a ∧ fixed j = b ∧
      ∀ t, t ∉ [i, j] → fixed t = 0 :=
    ⟨fun t => if t = i then a else if t = j then b else 0, if_pos rfl, by simp [Ne.symm hij], by
      intro t ht
      simp only [List.mem_cons, List.not_mem_nil, or_false, not_or] at ht
      simp [ht.1, ht.2]⟩
  have := hs fixed (by
    intro t ht
    simp only [einMat, List.mem_cons, List.not_mem_nil, or_false] at ht
    rcases ht with rfl | rfl
    · rw [Bi, fi]; exact ha
    · rw [Bj, fj]; exact hb) f0
  have hi := lt_loopRank (ops := (einMat c c0 c1 i j : EinOp α) ::
    leaves (.binary f (.op (einVec x x0 i)) (.op (einVec y y0 j)))) (k := i) List.mem_cons_self (by simp [einMat])
  have hj := lt_loopRank (ops := (einMat c c0 c1 i j : EinOp α) ::
    leaves (.binary f (.op (einVec x x0 i)) (.op (einVec y y0 j)))) (k := j) List.mem_cons_self (by simp [einMat])
  rw [show (einMat c c0 c1 i j : EinOp α).is.map fixed = [a, b] from by simp [einMat, fi, fj]] at this
  simp only [offsetOf, List.map_cons, List.map_nil, add_zero, ← add_assoc] at this
  simp only [valueAt, valueAt_vec hi, valueAt_vec hj, fi, fj] at this
  exact this

/-- C96: `ein<j>(s) += ein<i, j, k>(T)` adds to `s(y)` every `T(x, y, z)` (test/ein_reduce.cpp:276-290). -/
theorem C96_plane_sum [AddCommMonoid α] (i j k : Nat) (hd : [i, j, k].Nodup) (s v : Int) (s0 v0 v1 v2 : SDim)
    (hg : ∀ d ∈ [s0, v0, v1, v2], GoodDim d) (h1 : SameBounds v1 s0)
    (hr : GoodResult (einVec s s0 j) (.op (einVol v v0 v1 v2 i j k) : EinExpr α)) (m : Mem α) :
    ∃ m', einReduce (· + ·) (einVec s s0 j) (.op (einVol v v0 v1 v2 i j k)) m = some m' ∧
      (∀ y, inDim s0 y → vecAt m' s s0 y = vecAt m s s0 y +
        ∑ x ∈ Finset.Ico v0.val.min (v0.val.min + v0.val.extent),
          ∑ z ∈ Finset.Ico v2.val.min (v2.val.min + v2.val.extent), volAt m v v0 v1 v2 x y z) ∧
      ∀ p, ¬ OpElement (einVec s s0 j : EinOp α) p → m' p = m p := by
  simp only [List.nodup_cons, List.mem_cons, List.not_mem_nil, or_false, not_or, not_false_eq_true, List.nodup_nil,
    and_true] at hd
  obtain ⟨⟨hij, hik⟩, hjk⟩ := hd
  obtain ⟨B, Bi, Bj, Bk⟩ : ∃ B : Nat → Int × Int, B i = (v0.val.min, v0.val.extent) ∧
      B j = (s0.val.min, s0.val.extent) ∧ B k = (v2.val.min, v2.val.extent) :=
    ⟨fun t => if t = i then (v0.val.min, v0.val.extent) else
      if t = j then (s0.val.min, s0.val.extent) else (v2.val.min, v2.val.extent),
      if_pos rfl, by simp [Ne.symm hij], by simp [Ne.symm hik, Ne.symm hjk]⟩
  obtain ⟨m', hm', hs, hframe⟩ := einReduce_sums (B := B) (m := m) (by
    intro o ho
    simp only [leaves, List.mem_cons, List.not_mem_nil, or_false] at ho
    rcases ho with rfl | rfl
    · exact ⟨hasBounds_vec (by rw [Bj]; exact ⟨rfl, rfl⟩), typed_vec (hg _ (by simp))⟩
    · exact ⟨hasBounds_vol (by rw [Bi]; exact ⟨rfl, rfl⟩) (by rw [Bj]; exact h1) (by rw [Bk]; exact ⟨rfl, rfl⟩),
        typed_vol (hg _ (by simp)) (hg _ (by simp)) (hg _ (by simp))⟩) hr (lb := s) (ld := [s0]) rfl (ks := [i, k])
    (by simp [hik])
    (by
      intro t ht
      simp only [List.mem_cons, List.not_mem_nil, or_false] at ht
      rcases ht with rfl | rfl
      · exact ⟨by simp [einVec, hij], einVol v v0 v1 v2 t j k, by simp [leaves], uses_vol.2 (by simp)⟩
      · exact ⟨by simp [einVec, Ne.symm hjk], einVol v v0 v1 v2 i j t, by simp [leaves], uses_vol.2 (by simp)⟩)
    (by
      intro o ho t hu
      simp only [leaves, List.mem_cons, List.not_mem_nil, or_false] at ho
      subst ho
      rw [uses_vol] at hu
      simp only [einVec, List.mem_cons, List.not_mem_nil, or_false]
      tauto)
  refine ⟨m', hm', ?_, hframe⟩
  intro y hy
  obtain ⟨fixed, fj, f0⟩ : ∃ fixed : Nat → Int, fixed j = y ∧ ∀ t, t ∉ [j] → fixed t = 0 :=
    ⟨fun t => if t = j then y else 0, if_pos rfl, by
      intro t ht
      simp only [List.mem_cons, List.not_mem_nil, or_false] at ht
      simp [ht]⟩
  have := hs fixed (by
    intro t ht
    simp only [einVec, List.mem_cons, List.not_mem_nil, or_false] at ht
    subst ht
    rw [Bj, fj]; exact hy) f0
  rw [show (einVec s s0 j : EinOp α).is.map fixed = [y] from by simp [einVec, fj], envs_sum2] at this
  simp only [offsetOf, List.map_cons, List.map_nil, add_zero] at this
  set N := loopRank ((einVec s s0 j : EinOp α) :: leaves (.op (einVol v v0 v1 v2 i j k))) with hN
  have hi : i < N := lt_loopRank (o := einVol v v0 v1 v2 i j k) (by simp [leaves]) (by simp [einVol])
  have hj : j < N := lt_loopRank (o := einVol v v0 v1 v2 i j k) (by simp [leaves]) (by simp [einVol])
  have hk : k < N := lt_loopRank (o := einVol v v0 v1 v2 i j k) (by simp [leaves]) (by simp [einVol])
  simp only [valueAt_vol hi hj hk, Function.update_self, Function.update_of_ne hik, Function.update_of_ne hjk,
    Function.update_of_ne (Ne.symm hij), fj, Bi, Bk] at this
  exact this

/-! ### Discrete Fourier transforms -/

/-- `for_all_indices` with an assignment to each element. -/
theorem assignAll_spec (base : Int) (dims : List SDim) (f : Index → α) (m : Mem α)
    (hn : NonNeg (dims.map SDim.val)) (hi : Injective (dims.map SDim.val)) :
    ∃ m', assignAll base dims f m = some m' ∧
      (∀ i, InBox (dims.map SDim.val) i → m' (base + offsetOf (dims.map SDim.val) i) = f i) ∧
      ∀ p, (∀ i, InBox (dims.map SDim.val) i → p ≠ base + offsetOf (dims.map SDim.val) i) → m' p = m p := by
  have e : assignAll base dims f m = some (updates (fun _ y => y)
      (fun i => base + offsetOf (dims.map SDim.val) i) f m (boxList (dims.map SDim.val))) := by
    unfold assignAll updates
    rw [show values dims = dims.map SDim.val from rfl, forEachIndex_eq hn]
    simp only [flatOffset_eq]
    rfl
  refine ⟨_, e, fun i hb => ?_, fun p hp => ?_⟩
  · rw [updates_apply]
    have hfil : (boxList (dims.map SDim.val)).filter
        (fun j => decide (base + offsetOf (dims.map SDim.val) j = base + offsetOf (dims.map SDim.val) i)) = [i] := by
      have hnd : (boxList (dims.map SDim.val)).Nodup := (boxList_pairwise _).imp fun h => h.ne
      refine List.perm_singleton.1 ((List.perm_ext_iff_of_nodup (hnd.filter _) (by simp)).2 fun j => ?_)
      rw [List.mem_filter, mem_boxList, List.mem_singleton, decide_eq_true_eq]
      constructor
      · rintro ⟨hj, he⟩
        exact hi j i hj hb (by omega)
      · rintro rfl
        exact ⟨hb, rfl⟩
    rw [hfil]
    rfl
  · rw [updates_apply]
    have hfil : (boxList (dims.map SDim.val)).filter
        (fun j => decide (base + offsetOf (dims.map SDim.val) j = p)) = [] := by
      rw [List.filter_eq_nil_iff]
      intro j hj
      rw [decide_eq_true_eq]
      exact fun h => hp j (mem_boxList.1 hj) h.symm
    rw [hfil]
    rfl

/-- C96: the program of README.md:315-325 adds `∑ k, w^(j*k) * x(k)` to `X(j)`, and changes nothing but `X` and `W`. -/
theorem C96_dft [DivisionRing α] (w : α) (j k : Nat) (W x X : Int) (W0 W1 x0 X0 : SDim)
    (h : DftOk W x X W0 W1 x0 X0 j k α) (m : Mem α) :
    ∃ m', dft w W [W0, W1] (einVec x x0 k) (einVec X X0 j) j k m = some m' ∧
      (∀ a, inDim X0 a → vecAt m' X X0 a = vecAt m X X0 a +
        ∑ b ∈ Finset.Ico x0.val.min (x0.val.min + x0.val.extent), w ^ (a * b) * vecAt m x x0 b) ∧
      ∀ p, ¬ OpElement (einVec X X0 j : EinOp α) p → ¬ OpElement (einMat W W0 W1 j k : EinOp α) p → m' p = m p := by
  obtain ⟨m1, e1, v1, f1⟩ := assignAll_spec W [W0, W1] (fun i => w ^ (i.getD 0 0 * i.getD 1 0)) m
    (by
      intro d hd
      simp only [List.map_cons, List.map_nil, List.mem_cons, List.not_mem_nil, or_false] at hd
      rcases hd with rfl | rfl
      · exact (h.good W0 (by simp)).2
      · exact (h.good W1 (by simp)).2) h.matrix
  have hW : ∀ p, ¬ OpElement (einMat W W0 W1 j k : EinOp α) p → m1 p = m p := by
    intro p hp
    refine f1 p fun i hi e => hp ⟨W, i, rfl, hi, e⟩
  obtain ⟨m2, e2, v2, f2⟩ := C41_matrix_vector j k h.different X W x X0 W0 W1 x0 h.good h.rows h.cols h.result m1
  refine ⟨m2, ?_, fun a ha => ?_, fun p h1 h2 => by rw [f2 p h1, hW p h2]⟩
  · unfold dft
    rw [e1]
    exact e2
  · rw [v2 a ha, h.cols.1, h.cols.2]
    have hX : vecAt m1 X X0 a = vecAt m X X0 a :=
      hW _ fun hp => h.result.2 (einMat W W0 W1 j k) List.mem_cons_self _ (element_vec ha) hp
    rw [hX]
    congr 1
    refine Finset.sum_congr rfl fun b hb => ?_
    rw [Finset.mem_Ico] at hb
    have hb0 : inDim x0 b := by unfold inDim; rw [h.cols.1, h.cols.2]; exact hb
    have ha0 : inDim W0 a := by unfold inDim at ha ⊢; rw [h.rows.1, h.rows.2]; exact ha
    have hx : vecAt m1 x x0 b = vecAt m x x0 b := hW _ fun hp => h.apart _ hp (element_vec hb0)
    rw [hx]
    congr 1
    have := v1 [a, b] ⟨⟨ha0.1, ha0.2⟩, ⟨hb.1, hb.2⟩, trivial⟩
    simp only [List.map_cons, List.map_nil, offsetOf, add_zero, ← add_assoc] at this
    exact this

/-- The sum of the powers of a root of unity over a window of `n` exponents. -/
theorem roots_sum [Field α] {w : α} {n : Nat} (hw : IsPrimitiveRoot w n) (s : Int) (d : Int) (hd : |d| < n) :
    ∑ a ∈ Finset.Ico s (s + n), w ^ (a * d) = if d = 0 then (n : α) else 0 := by
  have hn : 0 < n := by
    by_contra h
    have : n = 0 := by omega
    subst this
    have := abs_nonneg d
    omega
  have hw0 : w ≠ 0 := hw.ne_zero hn.ne'
  by_cases h0 : d = 0
  · subst h0
    simp
  · rw [if_neg h0]
    have hz1 : w ^ d ≠ 1 := by
      intro h
      have := (hw.zpow_eq_one_iff_dvd d).1 h
      have := Int.eq_zero_of_abs_lt_dvd this (by omega)
      exact h0 this
    have hzn : (w ^ d) ^ n = 1 := by
      rw [← zpow_natCast, ← zpow_mul, mul_comm, zpow_mul, zpow_natCast, hw.pow_eq_one, one_zpow]
    have e : ∑ a ∈ Finset.Ico s (s + n), w ^ (a * d) = ∑ t ∈ Finset.range n, w ^ (s * d) * (w ^ d) ^ t := by
      refine Finset.sum_bij' (fun a _ => (a - s).toNat) (fun t _ => s + t) ?_ ?_ ?_ ?_ ?_
      · intro a ha; rw [Finset.mem_Ico] at ha; rw [Finset.mem_range]; omega
      · intro t ht; rw [Finset.mem_range] at ht; rw [Finset.mem_Ico]; omega
      · intro a ha; rw [Finset.mem_Ico] at ha; omega
      · intro t ht; omega
      · intro a ha
        rw [Finset.mem_Ico] at ha
        rw [← zpow_natCast, ← zpow_mul, ← zpow_add₀ hw0]
        congr 1
        rw [Int.toNat_of_nonneg (by omega)]
        ring
    rw [e, ← Finset.mul_sum, geom_sum_eq hz1, hzn, sub_self, zero_div, mul_zero]

/-- C96: the transform with `w` into zeros, followed by the transform of its result with `w⁻¹`, adds `n * x(b)` to
`Y(b)`, for a primitive `n`-th root of unity `w` and vectors of `n` elements with any mins. -/
theorem C96_dft_inverse [Field α] (w : α) (n : Nat) (hw : IsPrimitiveRoot w n) (j k : Nat) (W V x X Y : Int)
    (W0 W1 V0 V1 x0 X0 Y0 : SDim) (h : DftOk W x X W0 W1 x0 X0 j k α) (h' : DftOk V X Y V0 V1 X0 Y0 k j α)
    (hx : x0.val.extent = n) (hX : X0.val.extent = n) (hY : SameBounds Y0 x0) (m : Mem α)
    (h0 : ∀ a, inDim X0 a → vecAt m X X0 a = 0)
    (hYX : ∀ p, OpElement (einVec Y Y0 k : EinOp α) p →
      ¬ OpElement (einMat W W0 W1 j k : EinOp α) p ∧ ¬ OpElement (einVec X X0 j : EinOp α) p) :
    ∃ m1 m2, dft w W [W0, W1] (einVec x x0 k) (einVec X X0 j) j k m = some m1 ∧
      dft w⁻¹ V [V0, V1] (einVec X X0 j) (einVec Y Y0 k) k j m1 = some m2 ∧
      ∀ b, inDim Y0 b → vecAt m2 Y Y0 b = vecAt m Y Y0 b + n * vecAt m x x0 b := by
  obtain ⟨m1, e1, v1, f1⟩ := C96_dft w j k W x X W0 W1 x0 X0 h m
  obtain ⟨m2, e2, v2, -⟩ := C96_dft w⁻¹ k j V X Y V0 V1 X0 Y0 h' m1
  refine ⟨m1, m2, e1, e2, fun b hb => ?_⟩
  have hbx : x0.val.min ≤ b ∧ b < x0.val.min + n := by
    unfold inDim at hb
    rw [hY.1, hY.2, hx] at hb
    exact hb
  have hn : 0 < n := by omega
  have hw0 : w ≠ 0 := hw.ne_zero hn.ne'
  rw [v2 b hb]
  have hYb : vecAt m1 Y Y0 b = vecAt m Y Y0 b := by
    obtain ⟨h1, h2⟩ := hYX _ (element_vec (i := k) hb)
    exact f1 _ h2 h1
  rw [hx] at v1
  rw [hYb, hX]
  congr 1
  have step : ∀ a ∈ Finset.Ico X0.val.min (X0.val.min + n), w⁻¹ ^ (b * a) * vecAt m1 X X0 a =
      ∑ c ∈ Finset.Ico x0.val.min (x0.val.min + n), w ^ (a * (c - b)) * vecAt m x x0 c := by
    intro a ha
    rw [Finset.mem_Ico] at ha
    have ha' : inDim X0 a := by unfold inDim; rw [hX]; exact ha
    rw [v1 a ha', h0 a ha', zero_add, Finset.mul_sum]
    refine Finset.sum_congr rfl fun c _ => ?_
    rw [← mul_assoc]
    congr 1
    rw [inv_zpow', ← zpow_add₀ hw0]
    congr 1
    ring
  rw [Finset.sum_congr rfl step, Finset.sum_comm]
  simp only [← Finset.sum_mul]
  have key : ∀ c ∈ Finset.Ico x0.val.min (x0.val.min + n),
      (∑ a ∈ Finset.Ico X0.val.min (X0.val.min + n), w ^ (a * (c - b))) * vecAt m x x0 c =
        if c = b then n * vecAt m x x0 b else 0 := by
    intro c hc
    rw [Finset.mem_Ico] at hc
    rw [roots_sum hw _ _ (by rw [abs_lt]; omega)]
    by_cases e : c = b
    · subst e; simp
    · rw [if_neg (by omega), if_neg e, zero_mul]
  rw [Finset.sum_congr rfl key, Finset.sum_ite_eq', if_pos (by rw [Finset.mem_Ico]; exact hbx)]

end Nda
