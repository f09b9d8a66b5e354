import Verif.Lemmas.Ieee
import Verif.Lemmas.BlockSums
import Verif.Props.Rounding
/-
Lemmas on `relative_error` in binary32 (C93).
-/
namespace Nda
open Spec

theorem float_eta : (0 : ℚ) ≤ (2 : ℚ) ^ (-150 : Int) ∧ (2 : ℚ) ^ (-150 : Int) = (2 : ℚ)⁻¹ ^ 150 := by
  refine ⟨by positivity, ?_⟩
  rw [inv_pow, ← zpow_natCast, ← zpow_neg]
  norm_num

theorem largestFloat_ge : (1000000 : ℚ) ≤ largestFloat := by
  unfold largestFloat
  norm_num

theorem largestFloat_nonneg : (0 : ℚ) ≤ largestFloat := le_trans (by norm_num) largestFloat_ge

/-- The operations of products in binary32. -/
theorem ieeeScalar_rounds : Rounds ieeeFloat.scalar (fun x => IsFloat x.finite) Ieee.value ((2 : ℚ)⁻¹ ^ 24)
    ((2 : ℚ) ^ (-150 : Int)) largestFloat where
  unit := ieeeFloat_rounds.unit
  underflow := ieeeFloat_rounds.underflow
  zero := ieeeFloat_rounds.zero
  add := ieeeFloat_rounds.add
  mul := ieeeFloat_rounds.mul
  lt a b ha hb := by
    rw [Ieee.of_finite ha, Ieee.of_finite hb]
    exact decide_eq_true_iff

/-- Literals. -/
theorem float_lit {τ : ℚ} (h0 : 1 / 1000000 ≤ τ) (h1 : τ ≤ 1) :
    ∃ t, ieeeFloat.lit τ = .num t ∧ |t - τ| ≤ 1 / 10000000 * τ := by
  have key : |nearestBinary roundEven 24 (-149) τ - τ| ≤ 1 / 10000000 * τ := by
    rcases nearestBinary_error roundEven_nearest (p := 24) (emin := -149) τ with h | ⟨-, h⟩
    · refine h.trans ?_
      rw [abs_of_pos (by linarith)]
      norm_num
      linarith
    · refine h.trans ?_
      have := float_eta.2
      norm_num at *
      linarith
  refine ⟨_, ?_, key⟩
  show Ieee.rounded roundEven 24 (-149) largestFloat τ = _
  unfold Ieee.rounded
  rw [if_pos]
  have := abs_le.1 key
  refine le_trans (abs_le.2 ⟨?_, ?_⟩) largestFloat_ge <;> linarith

/-- The relative error of non-negative numbers, up to rounding. -/
theorem relativeError_near {x z : Ieee} (hx : IsFloat x.finite) (hz : IsFloat z.finite) (hx0 : 0 ≤ x.value)
    (hz0 : 0 ≤ z.value) (hM : 0 < max x.value z.value) :
    ∃ r, relativeError ieeeFloat x z = .num r ∧
      |r - |x.value - z.value| / max x.value z.value| ≤
        1 / 5000000 * (|x.value - z.value| / max x.value z.value) + (2 : ℚ)⁻¹ ^ 150 := by
  have R := ieeeFloat_rounds
  have hL := largestFloat_ge
  have hη := float_eta.2
  have hxL : x.value ≤ largestFloat := by
    obtain ⟨n, e, -, -, h, h'⟩ := hx
    rw [Ieee.value_eq, h]
    exact (le_abs_self _).trans h'
  have hzL : z.value ≤ largestFloat := by
    obtain ⟨n, e, -, -, h, h'⟩ := hz
    rw [Ieee.value_eq, h]
    exact (le_abs_self _).trans h'
  set M := max x.value z.value with hMdef
  have hxM : x.value ≤ M := le_max_left _ _
  have hzM : z.value ≤ M := le_max_right _ _
  have hdM : |x.value - z.value| ≤ M := abs_le.2 ⟨by linarith, by linarith⟩
  obtain ⟨fs, es⟩ := R.sub x z hx hz (hdM.trans (max_le hxL hzL))
  set s := ieeeFloat.sub x z with hs
  set D := |x.value - z.value| with hD
  have hD0 : 0 ≤ D := abs_nonneg _
  have hsv : |(|s.value| - D)| ≤ (2 : ℚ)⁻¹ ^ 24 * D := (abs_abs_sub_abs_le_abs_sub _ _).trans es
  have habs : ieeeFloat.abs s = .num |s.value| := by rw [Ieee.of_finite fs]; rfl
  have fa : IsFloat (Ieee.num |s.value|).finite := by
    obtain ⟨n, e, h1, h2, h3, h4⟩ := fs
    refine ⟨|n|, e, h1, by rwa [abs_abs], ?_, ?_⟩
    · rw [Ieee.value_eq, h3]
      show some |(n : ℚ) * (2 : ℚ) ^ e| = _
      rw [abs_mul, abs_of_pos (two_zpow_pos e), Int.cast_abs]
    · rw [abs_mul, abs_of_pos (two_zpow_pos e)] at h4 ⊢
      rwa [Int.cast_abs, abs_abs]
  obtain ⟨y, hy, fy, vy⟩ : ∃ y, (if ieeeFloat.lt x z = true then z else x) = y ∧ IsFloat y.finite ∧ y.value = M := by
    have hlt := ieeeScalar_rounds.lt x z hx hz
    by_cases h : x.value < z.value
    · exact ⟨z, if_pos (hlt.2 h), hz, (max_eq_right h.le).symm⟩
    · exact ⟨x, if_neg fun h' => h (hlt.1 h'), hx, (max_eq_left (not_lt.1 h)).symm⟩
  unfold relativeError
  rw [← hs, habs, hy]
  have hq : |(|s.value| / M) - D / M| ≤ (2 : ℚ)⁻¹ ^ 24 * (D / M) := by
    rw [← sub_div, abs_div, abs_of_pos hM, div_le_iff₀ hM, mul_assoc, div_mul_cancel₀ _ hM.ne']
    exact hsv
  have hDM : D / M ≤ 1 := by rw [div_le_one hM]; exact hdM
  have hDM0 : 0 ≤ D / M := by positivity
  have hsM : |s.value| / M ≤ D / M + (2 : ℚ)⁻¹ ^ 24 * (D / M) := by linarith [(abs_le.1 hq).2]
  have hsM0 : 0 ≤ |s.value| / M := by positivity
  have e1 : (Ieee.num |s.value|).value / y.value = |s.value| / M := by rw [vy]; rfl
  obtain ⟨fr, er⟩ := R.div (.num |s.value|) y fa fy (by rw [vy]; exact hM.ne') (by
    rw [e1, abs_of_nonneg hsM0]
    refine le_trans ?_ hL
    norm_num at hsM
    linarith)
  rw [e1, abs_of_nonneg hsM0, hη] at er
  refine ⟨_, Ieee.of_finite fr, ?_⟩
  generalize (ieeeFloat.div (.num |s.value|) y).value = r at *
  have e2 : r - D / M = (r - |s.value| / M) + (|s.value| / M - D / M) := by ring
  rw [e2]
  refine (abs_add_le _ _).trans ?_
  generalize |s.value| / M = S at *
  generalize D / M = T at *
  norm_num at *
  linarith

/-- Products of numbers of [0, 1]. -/
theorem unit_mul {x y : Ieee} (hx : UnitFloat x) (hy : UnitFloat y) :
    IsFloat (ieeeFloat.mul x y).finite ∧ 0 ≤ (ieeeFloat.mul x y).value ∧ (ieeeFloat.mul x y).value ≤ 2 := by
  have R := ieeeFloat_rounds
  have h0 : 0 ≤ x.value * y.value := mul_nonneg hx.2.1 hy.2.1
  have h1 : x.value * y.value ≤ 1 := mul_le_one₀ hx.2.2 hy.2.1 hy.2.2
  obtain ⟨f, e⟩ := R.mul x y hx.1 hy.1 (by
    rw [abs_of_nonneg h0]
    exact h1.trans (le_trans (by norm_num) largestFloat_ge))
  refine ⟨f, ?_, ?_⟩
  · have e1 : ieeeFloat.mul x y = Ieee.rounded roundEven 24 (-149) largestFloat (x.value * y.value) := by
      rw [Ieee.of_finite hx.1, Ieee.of_finite hy.1]; rfl
    rw [e1]
    unfold Ieee.rounded
    split
    · exact nearestBinary_nonneg roundEven_nearest h0
    · exact le_refl (0 : ℚ)
  · rw [abs_of_nonneg h0, float_eta.2] at e
    have := (abs_le.1 e).2
    norm_num at this
    linarith

theorem nearestBinary_nonpos {rnd : ℚ → Int} {p : Nat} {emin : Int} (h : ToNearest rnd) {x : ℚ} (hx : x ≤ 0) :
    nearestBinary rnd p emin x ≤ 0 := by
  unfold nearestBinary
  refine mul_nonpos_of_nonpos_of_nonneg ?_ (by positivity)
  have h1 := abs_le.1 (h (x / (2 : ℚ) ^ lastDigit p emin x))
  have h2 : x / (2 : ℚ) ^ lastDigit p emin x ≤ 0 := div_nonpos_of_nonpos_of_nonneg hx (by positivity)
  have h3 : (rnd (x / (2 : ℚ) ^ lastDigit p emin x) : ℚ) < 1 := by linarith [h1.1]
  have h4 : rnd (x / (2 : ℚ) ^ lastDigit p emin x) < 1 := by exact_mod_cast h3
  exact_mod_cast (by omega : rnd (x / (2 : ℚ) ^ lastDigit p emin x) ≤ 0)

theorem float_lit_pos {τ : ℚ} (h0 : 1 / 1000000 ≤ τ) (h1 : τ ≤ 1) : ∃ t, ieeeFloat.lit τ = .num t ∧ 0 < t := by
  obtain ⟨t, e, h⟩ := float_lit h0 h1
  refine ⟨t, e, ?_⟩
  have := abs_le.1 h
  linarith

/-- `NaN > tolerance` is false. -/
theorem exceeds_nan {τ : ℚ} {x z : Ieee} (h : relativeError ieeeFloat x z = .nan) : exceeds ieeeFloat τ x z = false := by
  unfold exceeds
  rw [h]
  show Ieee.lt _ .nan = false
  cases ieeeFloat.lit τ <;> rfl

theorem exceeds_nonpos {τ : ℚ} (h0 : 1 / 1000000 ≤ τ) (h1 : τ ≤ 1) {x z : Ieee} {r : ℚ}
    (h : relativeError ieeeFloat x z = .num r) (hr : r ≤ 0) : exceeds ieeeFloat τ x z = false := by
  obtain ⟨t, e, ht⟩ := float_lit_pos h0 h1
  unfold exceeds
  rw [h, e]
  show decide (t < r) = false
  simp only [decide_eq_false_iff_not]
  linarith

theorem float_zero : Ieee.rounded roundEven 24 (-149) largestFloat 0 = .num 0 := by decide +kernel

theorem exceeds_self {τ : ℚ} (h0 : 1 / 1000000 ≤ τ) (h1 : τ ≤ 1) (x : Ieee) : exceeds ieeeFloat τ x x = false := by
  cases x with
  | nan => exact exceeds_nan rfl
  | inf s => cases s <;> exact exceeds_nan rfl
  | num q =>
    have e : relativeError ieeeFloat (.num q) (.num q) = if q = 0 then .nan else .num 0 := by
      unfold relativeError
      have h1 : ieeeFloat.sub (.num q) (.num q) = .num 0 := by
        show Ieee.rounded roundEven 24 (-149) largestFloat (q + -q) = _
        rw [add_neg_cancel, float_zero]
      have h2 : ieeeFloat.lt (.num q) (.num q) = false := by
        show decide (q < q) = false
        simp
      rw [h1, h2]
      show (if q = 0 then (if |(0 : ℚ)| = 0 then Ieee.nan else _) else
        Ieee.rounded roundEven 24 (-149) largestFloat (|(0 : ℚ)| / q)) = _
      rw [abs_zero, zero_div, float_zero]
      simp
    by_cases hq : q = 0
    · rw [if_pos hq] at e
      exact exceeds_nan e
    · rw [if_neg hq] at e
      exact exceeds_nonpos h0 h1 e le_rfl

/-- What the comparison with a tolerance decides for numbers that are not negative. -/
theorem exceeds_near {τ : ℚ} (h0 : 1 / 1000000 ≤ τ) (h1 : τ ≤ 1) {x z : Ieee} (hx : IsFloat x.finite)
    (hz : IsFloat z.finite) (hx0 : 0 ≤ x.value) (hz0 : 0 ≤ z.value) :
    (exceeds ieeeFloat τ x z = true → (1 - 1 / 1000000) * τ * max x.value z.value < |x.value - z.value|) ∧
    (exceeds ieeeFloat τ x z = false → |x.value - z.value| ≤ (1 + 1 / 1000000) * τ * max x.value z.value) := by
  rcases (le_max_of_le_left hx0 : 0 ≤ max x.value z.value).lt_or_eq with hM | hM
  · obtain ⟨r, er, hr⟩ := relativeError_near hx hz hx0 hz0 hM
    obtain ⟨t, et, ht⟩ := float_lit h0 h1
    have hη : (2 : ℚ)⁻¹ ^ 150 ≤ 1 / 10000000 * (1 / 1000000) := by norm_num
    generalize (2 : ℚ)⁻¹ ^ 150 = η at hr hη
    have e : |x.value - z.value| = |x.value - z.value| / max x.value z.value * max x.value z.value := by
      field_simp
    have hD : 0 ≤ |x.value - z.value| / max x.value z.value := by positivity
    rw [e]
    generalize |x.value - z.value| / max x.value z.value = D at hr hD
    generalize max x.value z.value = X at hM
    have hr' := abs_le.1 hr
    have ht' := abs_le.1 ht
    have hb : exceeds ieeeFloat τ x z = decide (t < r) := by
      unfold exceeds
      rw [er, et]
      rfl
    rw [hb]
    simp only [decide_eq_true_eq, decide_eq_false_iff_not, not_lt]
    refine ⟨fun h => mul_lt_mul_of_pos_right ?_ hM, fun h => mul_le_mul_of_nonneg_right ?_ hM.le⟩ <;> linarith
  · have h3 : x.value = 0 := le_antisymm (hM ▸ le_max_left _ _) hx0
    have h4 : z.value = 0 := le_antisymm (hM ▸ le_max_right _ _) hz0
    have : exceeds ieeeFloat τ x z = false := by
      have hx := Ieee.of_finite hx
      have hz := Ieee.of_finite hz
      rw [hx, hz, h3, h4]
      exact exceeds_self h0 h1 _
    rw [this]
    refine ⟨by simp, fun _ => ?_⟩
    rw [h3, h4]
    simp

/-- What it does not decide. -/
theorem exceeds_blind {τ : ℚ} (h0 : 1 / 1000000 ≤ τ) (h1 : τ ≤ 1) (x z : Ieee)
    (h : (x = .nan ∨ z = .nan) ∨ (x = .inf false ∨ z = .inf false) ∨
      ieeeFloat.lt x (.num 0) = true ∧ ieeeFloat.lt z (.num 0) = true) : exceeds ieeeFloat τ x z = false := by
  rcases h with (rfl | rfl) | (rfl | rfl) | ⟨hx, hz⟩
  · exact exceeds_nan rfl
  · cases x <;> exact exceeds_nan rfl
  · rcases z with _ | (_ | _) | _ <;> exact exceeds_nan rfl
  · rcases x with _ | (_ | _) | _ <;> exact exceeds_nan rfl
  · have main : ∀ a : Ieee, (∃ q, a = .num q ∧ q ≤ 0) ∨ a = .inf true ∨ a = .nan →
        relativeError ieeeFloat x z = a → exceeds ieeeFloat τ x z = false := by
      rintro a (⟨q, rfl, hq⟩ | rfl | rfl) e
      · exact exceeds_nonpos h0 h1 e hq
      · obtain ⟨t, et, -⟩ := float_lit_pos h0 h1
        unfold exceeds
        rw [e, et]
        rfl
      · exact exceeds_nan e
    refine main _ ?_ rfl
    have quot : ∀ n : Ieee, (∃ a, n = .num a ∧ 0 ≤ a) ∨ n = .inf false ∨ n = .nan → ∀ w : Ieee,
        ieeeFloat.lt w (.num 0) = true →
        (∃ q, ieeeFloat.div n w = .num q ∧ q ≤ 0) ∨ ieeeFloat.div n w = .inf true ∨ ieeeFloat.div n w = .nan := by
      intro n hn w hw
      rcases w with b | (_ | _) | _
      · have hb : b < 0 := by
          have : decide (b < 0) = true := hw
          simpa using this
        rcases hn with ⟨a, rfl, ha⟩ | rfl | rfl
        · have e : ieeeFloat.div (.num a) (.num b) = Ieee.rounded roundEven 24 (-149) largestFloat (a / b) := by
            show (if b = 0 then _ else _) = _
            rw [if_neg hb.ne]
          rw [e]
          unfold Ieee.rounded
          have hab : a / b ≤ 0 := div_nonpos_of_nonneg_of_nonpos ha hb.le
          split
          · exact Or.inl ⟨_, rfl, nearestBinary_nonpos roundEven_nearest hab⟩
          · rename_i hbig
            refine Or.inr (Or.inl ?_)
            rcases hab.lt_or_eq with h | h
            · simp [h]
            · exfalso
              rw [h] at hbig
              have h5 := nearestBinary_nonpos (p := 24) (emin := -149) roundEven_nearest (le_refl (0 : ℚ))
              have h6 := nearestBinary_nonneg (p := 24) (emin := -149) roundEven_nearest (le_refl (0 : ℚ))
              rw [le_antisymm h5 h6, abs_zero] at hbig
              exact hbig largestFloat_nonneg
        · refine Or.inr (Or.inl ?_)
          show Ieee.inf (false != decide (b < 0)) = _
          simp [hb]
        · exact Or.inr (Or.inr rfl)
      · cases hw
      · rcases hn with ⟨a, rfl, ha⟩ | rfl | rfl
        · exact Or.inl ⟨0, rfl, le_rfl⟩
        · exact Or.inr (Or.inr rfl)
        · exact Or.inr (Or.inr rfl)
      · cases hw
    refine quot _ ?_ _ (by split <;> assumption)
    show (∃ a, Ieee.abs _ = .num a ∧ 0 ≤ a) ∨ Ieee.abs _ = .inf false ∨ Ieee.abs _ = .nan
    generalize ieeeFloat.sub x z = d
    cases d with
    | num q => exact Or.inl ⟨_, rfl, abs_nonneg q⟩
    | inf s => exact Or.inr (Or.inl rfl)
    | nan => exact Or.inr (Or.inr rfl)

end Nda
