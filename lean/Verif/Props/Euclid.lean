import Verif.Lemmas.Rational
/-
C44: Euclidean division and modulus on two's-complement integers of any width.
-/
namespace Nda
variable {w : Nat}

/-- C44: `euclidean_div(a, b)` is defined unless `b` is 0 or `a / b` overflows, and is the quotient
whose remainder is in `[0, |b|)`. -/
theorem C44_div (hw : 0 < w) (a b : BitVec w) (hb : b ≠ 0#w)
    (ho : ¬ (a = BitVec.intMin w ∧ b = -1#w)) :
    ∃ q, euclideanDiv a b = some q ∧ 0 ≤ a.toInt - q.toInt * b.toInt ∧
      a.toInt - q.toInt * b.toInt < |b.toInt| := by
  have hb' : b.toInt ≠ 0 := fun h => hb (toInt_eq_zero.1 h)
  have hd : ¬ (b = 0#w ∨ (a = BitVec.intMin w ∧ b = -1#w)) := by tauto
  obtain ⟨e1, v1⟩ := cdiv_some hd
  have hA := fit_toInt a
  have hB := fit_toInt b
  obtain ⟨t1, t2, t3, t4, t5⟩ := tdivmod a.toInt b.toInt hb'
  obtain ⟨e2, v2⟩ := cmul_some (a := a.sdiv b) (b := b) (by rw [v1]; exact fit_mul_tdiv hA hb')
  rw [v1] at v2
  have hc : a.toInt.tdiv b.toInt * b.toInt = b.toInt * a.toInt.tdiv b.toInt := mul_comm _ _
  have hr : a.toInt - (a.sdiv b * b).toInt = a.toInt.tmod b.toInt := by rw [v2]; omega
  have hab : |b.toInt| = b.toInt ∧ 0 < b.toInt ∨ |b.toInt| = -b.toInt ∧ b.toInt < 0 := by
    rcases lt_or_gt_of_ne hb' with h | h
    · exact Or.inr ⟨abs_of_neg h, h⟩
    · exact Or.inl ⟨abs_of_pos h, h⟩
  have hfr : Fit w (a.toInt.tmod b.toInt) := by
    unfold Fit at *
    rcases hab with h | h <;> omega
  obtain ⟨e3, v3⟩ := csub_some (a := a) (b := a.sdiv b * b) (by rw [hr]; exact hfr)
  rw [hr] at v3
  have key : euclideanDiv a b =
      (csub (a.sdiv b) (signMask (a - a.sdiv b * b) &&& signMask b)).bind fun u =>
        cadd u (signMask (a - a.sdiv b * b) &&& ~~~ signMask b) := by
    unfold euclideanDiv
    rw [e1]
    simp only [Option.bind_eq_bind, Option.bind_some]
    rw [e2]
    simp only [Option.bind_some]
    rw [e3]
    simp only [Option.bind_some]
  rw [key, signMask_eq hw, signMask_eq hw, v3]
  have hfq : Fit w (a.sdiv b).toInt := fit_toInt _
  rw [v1] at hfq
  by_cases hneg : a.toInt.tmod b.toInt < 0
  · have hA0 : a.toInt < 0 := by
      by_contra h
      have := t2 (by omega)
      omega
    rw [if_pos hneg]
    by_cases hbn : b.toInt < 0
    · have hb2 : b.toInt ≤ -2 := by rcases hab with h | h <;> omega
      have hq0 : 0 ≤ a.toInt.tdiv b.toInt := by
        by_contra h
        have : b.toInt * -1 ≤ b.toInt * a.toInt.tdiv b.toInt :=
          mul_le_mul_of_nonpos_left (by omega) (by omega)
        rcases hab with h | h <;> omega
      have hq1 : a.toInt.tdiv b.toInt + 1 < 2 ^ (w - 1) := by
        have h2 : b.toInt * a.toInt.tdiv b.toInt ≤ -2 * a.toInt.tdiv b.toInt :=
          mul_le_mul_of_nonneg_right hb2 hq0
        unfold Fit at *
        omega
      rw [if_pos hbn]
      obtain ⟨e4, v4⟩ := csub_some (a := a.sdiv b) (b := BitVec.allOnes w &&& BitVec.allOnes w) (by
        rw [v1, toInt_and_allOnes, toInt_neg_one hw]
        unfold Fit at *
        omega)
      rw [v1, toInt_and_allOnes, toInt_neg_one hw] at v4
      rw [e4, Option.bind_some]
      obtain ⟨e5, v5⟩ := cadd_some (a := a.sdiv b - (BitVec.allOnes w &&& BitVec.allOnes w))
        (b := BitVec.allOnes w &&& ~~~ BitVec.allOnes w) (by
          rw [toInt_and_allOnes, toInt_and_allOnes, v4]
          simp only [BitVec.not_allOnes, BitVec.toInt_zero]
          unfold Fit at *
          omega)
      rw [toInt_and_allOnes, toInt_and_allOnes, v4] at v5
      simp only [BitVec.not_allOnes, BitVec.toInt_zero] at v5
      refine ⟨_, e5, ?_⟩
      rw [toInt_and_allOnes, toInt_and_allOnes]
      simp only [BitVec.not_allOnes]
      rw [v5]
      have : (a.toInt.tdiv b.toInt - -1 + 0) * b.toInt = b.toInt * a.toInt.tdiv b.toInt + b.toInt := by ring
      rw [this]
      rcases hab with h | h <;> omega
    · rw [if_neg hbn]
      have hb2 : 2 ≤ b.toInt := by rcases hab with h | h <;> omega
      have hq0 : a.toInt.tdiv b.toInt ≤ 0 := by
        by_contra h
        have : b.toInt * 1 ≤ b.toInt * a.toInt.tdiv b.toInt :=
          mul_le_mul_of_nonneg_left (by omega) (by omega)
        rcases hab with h | h <;> omega
      have hq1 : -2 ^ (w - 1) < a.toInt.tdiv b.toInt := by
        have h2 : b.toInt * a.toInt.tdiv b.toInt ≤ 1 * a.toInt.tdiv b.toInt :=
          mul_le_mul_of_nonpos_right (by omega) hq0
        unfold Fit at *
        omega
      obtain ⟨e4, v4⟩ := csub_some (a := a.sdiv b) (b := BitVec.allOnes w &&& 0#w) (by
        rw [v1, toInt_and_allOnes, BitVec.toInt_zero]
        unfold Fit at *
        omega)
      rw [v1, toInt_and_allOnes, BitVec.toInt_zero] at v4
      rw [e4, Option.bind_some]
      obtain ⟨e5, v5⟩ := cadd_some (a := a.sdiv b - (BitVec.allOnes w &&& 0#w))
        (b := BitVec.allOnes w &&& ~~~ 0#w) (by
          rw [toInt_and_allOnes, toInt_and_allOnes, v4]
          simp only [BitVec.not_zero, toInt_neg_one hw]
          unfold Fit at *
          omega)
      rw [toInt_and_allOnes, toInt_and_allOnes, v4] at v5
      simp only [BitVec.not_zero, toInt_neg_one hw] at v5
      refine ⟨_, e5, ?_⟩
      rw [toInt_and_allOnes, toInt_and_allOnes]
      simp only [BitVec.not_zero]
      rw [v5]
      have : (a.toInt.tdiv b.toInt - 0 + -1) * b.toInt = b.toInt * a.toInt.tdiv b.toInt - b.toInt := by ring
      rw [this]
      rcases hab with h | h <;> omega
  · rw [if_neg hneg]
    simp only [BitVec.zero_and]
    obtain ⟨e4, v4⟩ := csub_some (a := a.sdiv b) (b := 0#w) (by
      rw [v1, BitVec.toInt_zero]; unfold Fit at *; omega)
    rw [v1, BitVec.toInt_zero] at v4
    rw [e4, Option.bind_some]
    obtain ⟨e5, v5⟩ := cadd_some (a := a.sdiv b - 0#w) (b := 0#w) (by
      rw [v4, BitVec.toInt_zero]; unfold Fit at *; omega)
    rw [v4, BitVec.toInt_zero] at v5
    refine ⟨_, e5, ?_⟩
    rw [v5]
    have : (a.toInt.tdiv b.toInt - 0 + 0) * b.toInt = b.toInt * a.toInt.tdiv b.toInt := by ring
    rw [this]
    omega

/-- C44: `euclidean_mod(a, b)` is the remainder in `[0, |b|)`.  `b` must not be the most negative
value, whose absolute value is not representable. -/
theorem C44_mod (hw : 0 < w) (a b : BitVec w) (hb : b ≠ 0#w)
    (ho : ¬ (a = BitVec.intMin w ∧ b = -1#w)) (hm : b ≠ BitVec.intMin w) :
    ∃ r q, euclideanMod a b = some r ∧ a.toInt = q * b.toInt + r.toInt ∧ 0 ≤ r.toInt ∧
      r.toInt < |b.toInt| := by
  have hb' : b.toInt ≠ 0 := fun h => hb (toInt_eq_zero.1 h)
  have hd : ¬ (b = 0#w ∨ (a = BitVec.intMin w ∧ b = -1#w)) := by tauto
  obtain ⟨e1, v1⟩ := crem_some hd
  obtain ⟨c, e2, v2⟩ := cabs_some hm
  obtain ⟨t1, t2, t3, t4, t5⟩ := tdivmod a.toInt b.toInt hb'
  have hfc := fit_toInt c
  rw [v2] at hfc
  have hfr := fit_toInt (a.srem b)
  rw [v1] at hfr
  have hc : a.toInt.tdiv b.toInt * b.toInt = b.toInt * a.toInt.tdiv b.toInt := mul_comm _ _
  have key : euclideanMod a b = cadd (a.srem b) (signMask (a.srem b) &&& c) := by
    unfold euclideanMod
    rw [e1]
    simp only [Option.bind_eq_bind, Option.bind_some]
    rw [e2]
    simp only [Option.bind_some]
  rw [key, signMask_eq hw, v1]
  by_cases hneg : a.toInt.tmod b.toInt < 0
  · rw [if_pos hneg, toInt_and_allOnes]
    obtain ⟨e3, v3⟩ := cadd_some (a := a.srem b) (b := c) (by
      rw [v1, v2]; unfold Fit at *; omega)
    rw [v1, v2] at v3
    rcases lt_or_gt_of_ne hb' with h | h
    · refine ⟨_, a.toInt.tdiv b.toInt + 1, e3, ?_, ?_, ?_⟩
      · rw [v3, abs_of_neg h]; linarith
      · omega
      · omega
    · refine ⟨_, a.toInt.tdiv b.toInt - 1, e3, ?_, ?_, ?_⟩
      · rw [v3, abs_of_pos h]; linarith
      · omega
      · omega
  · rw [if_neg hneg, BitVec.zero_and]
    obtain ⟨e3, v3⟩ := cadd_some (a := a.srem b) (b := 0#w) (by
      rw [v1, BitVec.toInt_zero]; unfold Fit at *; omega)
    rw [v1, BitVec.toInt_zero] at v3
    exact ⟨_, a.toInt.tdiv b.toInt, e3, by omega, by omega, by omega⟩

/-- C44: the two agree: `a = euclidean_div(a, b) * b + euclidean_mod(a, b)`. -/
theorem C44_div_mod (hw : 0 < w) (a b : BitVec w) (hb : b ≠ 0#w)
    (ho : ¬ (a = BitVec.intMin w ∧ b = -1#w)) (hm : b ≠ BitVec.intMin w) :
    ∃ q r, euclideanDiv a b = some q ∧ euclideanMod a b = some r ∧
      a.toInt = q.toInt * b.toInt + r.toInt ∧ 0 ≤ r.toInt ∧ r.toInt < |b.toInt| := by
  have hb' : b.toInt ≠ 0 := fun h => hb (toInt_eq_zero.1 h)
  obtain ⟨q, e1, h1, h2⟩ := C44_div hw a b hb ho
  obtain ⟨r, q', e2, h3, h4, h5⟩ := C44_mod hw a b hb ho hm
  have hq : q.toInt = q' := by
    rw [ediv_unique' h1 h2 hb']
    exact (ediv_unique' (by linarith) (by linarith) hb').symm
  exact ⟨q, r, e1, e2, by rw [hq]; exact h3, h4, h5⟩

/-- C44, negative part: by the most negative value `euclidean_mod` has undefined behaviour (it calls
`std::abs(b)`), although the result exists. -/
theorem C44_mod_intMin_counterexample (a : BitVec w) : euclideanMod a (BitVec.intMin w) = none := by
  unfold euclideanMod
  have : cabs (BitVec.intMin w) = none := if_pos rfl
  rw [this]
  cases crem a (BitVec.intMin w) <;> rfl

/- A divisor of each sign, 64 bits. -/
example : euclideanDiv (-7#64) 3#64 = some (-3#64) ∧ euclideanMod (-7#64) 3#64 = some 2#64 ∧
    euclideanDiv (-7#64) (-3#64) = some 3#64 ∧ euclideanMod (-7#64) (-3#64) = some 2#64 ∧
    euclideanDiv 7#64 (-3#64) = some (-2#64) ∧ euclideanMod 7#64 (-3#64) = some 1#64 ∧
    euclideanDiv (BitVec.intMin 64) 3#64 = some (-3074457345618258603#64) ∧
    euclideanDiv 7#64 0#64 = none ∧ euclideanDiv (BitVec.intMin 64) (-1#64) = none := by
  decide +kernel

end Nda
