import Verif.Spec.BoxFloat
import Verif.Props.KernelsFloat
/-
Lemmas for the box kernel in floating point (C99).
-/
namespace Nda
open Spec Kernel

/-- Rounding does not leave the range from -1/2 to 1/2. -/
theorem nearest_half {x : ℚ} (h : |x| ≤ 1 / 2) : |nearestBinary roundEven 24 (-149) x| ≤ 1 / 2 := by
  have hd : lastDigit 24 (-149) x ≤ -1 := by
    unfold lastDigit
    refine max_le ?_ (by norm_num)
    rcases eq_or_ne x 0 with rfl | h0
    · simp
    · have : Int.log 2 |x| < 0 := by
        refine (Int.lt_zpow_iff_log_lt (by norm_num) (abs_pos.2 h0)).1 ?_
        norm_num
        linarith
      push_cast
      omega
  unfold nearestBinary
  set q := lastDigit 24 (-149) x
  obtain ⟨n, hn⟩ := Int.eq_ofNat_of_zero_le (by omega : 0 ≤ -1 - q)
  have e : ((2 ^ n : Int) : ℚ) * (2 : ℚ) ^ q = 1 / 2 := by
    push_cast
    rw [← zpow_natCast, ← hn, ← zpow_add₀ (by norm_num)]
    norm_num
  have hq := two_zpow_pos q
  have h1 : |x / (2 : ℚ) ^ q| ≤ ((2 ^ n : Int) : ℚ) := by
    rw [abs_div, abs_of_pos hq, div_le_iff₀ hq, e]
    exact h
  have h2 := roundEven_nearest.abs_le h1
  rw [abs_mul, abs_of_pos hq, ← e]
  refine mul_le_mul_of_nonneg_right ?_ hq.le
  exact_mod_cast h2

/-- The box kernel is 1 or 0. -/
theorem boxOp_float (y : ℚ) : boxOp float32Kernel (some y) = some (if |y| ≤ 1 / 2 then 1 else 0) := by
  have l1 : float32Kernel.lit (1 / 2) = some (1 / 2) := by decide +kernel
  have e1 : float32Kernel.lit 1 = some 1 := by decide +kernel
  have e0 : float32Kernel.lit 0 = some 0 := by decide +kernel
  have ea : float32Kernel.abs (some y) = some |y| := rfl
  unfold boxOp
  rw [ea, lit_le _ l1, e1, e0]
  simp only [decide_eq_true_eq]
  split <;> rfl

/-- The product with a number that is at most 1 of the difference of an index and a position within half a pixel of it is
at most 1/2. -/
theorem box_near {i : Int} (h0 : 0 ≤ i) (h : i < 2 ^ 24) {P S : ℚ} (hP : |i - P| ≤ 1 / 2) (hS0 : 0 ≤ S) (hS : S ≤ 1) :
    ∃ y, float32.mul (float32.sub (float32.ofIndex i) (some P)) (some S) = some y ∧ |y| ≤ 1 / 2 := by
  have hL : (1 / 2 : ℚ) ≤ largestFloat := by unfold largestFloat; norm_num
  rw [(integer_float h0 h).1]
  have e1 : float32.sub (some (i : ℚ)) (some P) = some (nearestBinary roundEven 24 (-149) (i - P)) := by
    show finiteOr largestFloat (nearestBinary roundEven 24 (-149) (i - P)) = _
    exact if_pos ((nearest_half hP).trans hL)
  have h1 := nearest_half hP
  set d := nearestBinary roundEven 24 (-149) (i - P)
  have h2 : |d * S| ≤ 1 / 2 := by
    rw [abs_mul, abs_of_nonneg hS0]
    exact (mul_le_of_le_one_right (abs_nonneg _) hS).trans h1
  have e2 : float32.mul (some d) (some S) = some (nearestBinary roundEven 24 (-149) (d * S)) := by
    show finiteOr largestFloat (nearestBinary roundEven 24 (-149) (d * S)) = _
    exact if_pos ((nearest_half h2).trans hL)
  rw [e1, e2]
  exact ⟨_, rfl, nearest_half h2⟩

theorem power_le {N : Nat} (h : N ≤ 2 ^ 18) : (1 + (2 : ℚ)⁻¹ ^ 24) ^ N ≤ 1 + 33 / 32 * N / 2 ^ 24 := by
  have hN : (N : ℚ) ≤ 262144 := by exact_mod_cast h
  have hN0 : (0 : ℚ) ≤ N := by positivity
  have h1 := pow_mul_le_one (u := (2 : ℚ)⁻¹ ^ 24) (by positivity) N
  have hu : (2 : ℚ)⁻¹ ^ 24 = 1 / 2 ^ 24 := by norm_num
  rw [hu] at h1 ⊢
  have h2 : 0 < 1 - (N : ℚ) * (1 / 2 ^ 24) := by linarith
  rw [← le_div_iff₀ h2] at h1
  refine h1.trans ?_
  rw [div_le_iff₀ h2]
  nlinarith

theorem box_sumError {N : Nat} (h : N ≤ 2 ^ 18) :
    0 ≤ sumError ((2 : ℚ)⁻¹ ^ 24) N 1 ∧ sumError ((2 : ℚ)⁻¹ ^ 24) N 1 ≤ 33 / 32 * N / 2 ^ 24 := by
  have h1 := power_le h
  have h2 : (1 : ℚ) ≤ (1 + (2 : ℚ)⁻¹ ^ 24) ^ N := one_le_pow₀ (by norm_num)
  unfold sumError
  constructor <;> linarith

/-- A stage with weights that are not negative. -/
theorem box_stage {N : Nat} (hN : N ≤ 2 ^ 18) {y : ℚ} (hy : 0 ≤ y) :
    stageBound ((2 : ℚ)⁻¹ ^ 24) ((2 : ℚ) ^ (-150 : Int)) N 1 y ≤ y + 5 / 2 * (N + 2) / 2 ^ 24 * (y + 1) := by
  have hN' : (N : ℚ) ≤ 262144 := by exact_mod_cast hN
  have hN0 : (0 : ℚ) ≤ N := by positivity
  obtain ⟨s0, s1⟩ := box_sumError hN
  have hp := power_le hN
  have hp1 : (1 : ℚ) ≤ (1 + (2 : ℚ)⁻¹ ^ 24) ^ N := one_le_pow₀ (by norm_num)
  have hη : (2 : ℚ) ^ (-150 : Int) ≤ 1 / 2 ^ 50 := by norm_num
  have hη0 := (two_zpow_pos (-150)).le
  have hu : (2 : ℚ)⁻¹ ^ 24 = 1 / 2 ^ 24 := by norm_num
  set a : ℚ := N / 2 ^ 24 with ha
  have ha0 : 0 ≤ a := by positivity
  have ha1 : a ≤ 1 / 64 := by rw [ha, div_le_iff₀ (by norm_num)]; norm_num; linarith
  have s2 : sumError ((2 : ℚ)⁻¹ ^ 24) N 1 ≤ 33 / 32 * a := by rw [ha]; linarith
  have p2 : (1 + (2 : ℚ)⁻¹ ^ 24) ^ N ≤ 1 + 33 / 32 * a := by rw [ha]; linarith
  have hτ : tapError ((2 : ℚ)⁻¹ ^ 24) N 1 ≤ 21 / 20 * a + 21 / 20 / 2 ^ 24 := by
    unfold tapError
    rw [div_le_iff₀ (by linarith), hu]
    rw [hu] at s0 s2
    set σ := sumError ((1 : ℚ) / 2 ^ 24) N 1
    have k1 : (21 / 20 * a + 21 / 20 / 2 ^ 24) * (1 - 33 / 2048) ≤ (21 / 20 * a + 21 / 20 / 2 ^ 24) * (1 - σ) :=
      mul_le_mul_of_nonneg_left (by linarith) (by positivity)
    linarith
  have hτ0 := tapError_nonneg (u := (2 : ℚ)⁻¹ ^ 24) (n := N) (by positivity) (by norm_num : (0 : ℚ) ≤ 1) (by linarith)
  unfold stageBound
  set η := (2 : ℚ) ^ (-150 : Int)
  set τ := tapError ((2 : ℚ)⁻¹ ^ 24) N 1
  set P := (1 + (2 : ℚ)⁻¹ ^ 24) ^ N
  rw [hu]
  have hNη : N * η ≤ a / 2 ^ 26 := by
    rw [ha]
    have := mul_le_mul_of_nonneg_left hη hN0
    refine this.trans ?_
    rw [div_div, mul_one_div]
    norm_num
  have hNη0 : 0 ≤ N * η := by positivity
  set z := N * η
  have e : 5 / 2 * ((N : ℚ) + 2) / 2 ^ 24 = 5 / 2 * a + 5 / 2 ^ 24 := by rw [ha]; ring
  rw [e]
  have b1 : (1 + τ) * 1 + z ≤ 1 + 11 / 10 * a + 21 / 20 / 2 ^ 24 := by linarith
  have b2 : (1 + 1 / 2 ^ 24) * ((1 + τ) * 1 + z) ≤ 1 + 12 / 10 * a + 21 / 10 / 2 ^ 24 := by nlinarith
  have b3 : P * ((1 + 1 / 2 ^ 24) * ((1 + τ) * 1 + z)) ≤ 1 + 23 / 10 * a + 22 / 10 / 2 ^ 24 := by
    refine (mul_le_mul p2 b2 (by positivity) (by linarith)).trans ?_
    nlinarith
  have b4 : P * z ≤ 1 / 10 * a := by
    refine (mul_le_mul p2 hNη hNη0 (by linarith)).trans ?_
    nlinarith
  have e2 : P * ((1 + 1 / 2 ^ 24) * y * ((1 + τ) * 1 + z) + z) = P * ((1 + 1 / 2 ^ 24) * ((1 + τ) * 1 + z)) * y + P * z := by ring
  rw [e2]
  have b5 := mul_le_mul_of_nonneg_right b3 hy
  have b6 : 0 ≤ a * y := by positivity
  have b7 : (0 : ℚ) ≤ y / 2 ^ 24 := by positivity
  nlinarith

/-- Both stages. -/
theorem box_stages {M N : Nat} (hM : M ≤ 2 ^ 18) (hN : N ≤ 2 ^ 18) {y : ℚ} (hy : 0 ≤ y) :
    stageBound ((2 : ℚ)⁻¹ ^ 24) ((2 : ℚ) ^ (-150 : Int)) M 1 (stageBound ((2 : ℚ)⁻¹ ^ 24) ((2 : ℚ) ^ (-150 : Int)) N 1 y) ≤
      y + 3 * (M + N + 4) / 2 ^ 24 * (y + 1) := by
  have h1 := box_stage hN hy
  have h0 : 0 ≤ stageBound ((2 : ℚ)⁻¹ ^ 24) ((2 : ℚ) ^ (-150 : Int)) N 1 y :=
    hy.trans (stageBound_mono (by positivity) (two_zpow_pos (-150)).le le_rfl (by
      have hN' : (N : ℚ) ≤ 262144 := by exact_mod_cast hN
      have := (box_sumError hN).2
      refine this.trans_lt ?_
      rw [div_lt_iff₀ (by norm_num)]
      norm_num
      linarith) hy)
  have h2 := box_stage hM h0
  refine h2.trans ?_
  have hM' : (M : ℚ) ≤ 262144 := by exact_mod_cast hM
  have hM0 : (0 : ℚ) ≤ M := by positivity
  have hN0 : (0 : ℚ) ≤ N := by positivity
  set s := stageBound ((2 : ℚ)⁻¹ ^ 24) ((2 : ℚ) ^ (-150 : Int)) N 1 y
  set a : ℚ := 5 / 2 * (M + 2) / 2 ^ 24 with ha
  have ha0 : 0 ≤ a := by positivity
  have ha1 : a ≤ 1 / 20 := by rw [ha, div_le_iff₀ (by norm_num)]; norm_num; linarith
  set b : ℚ := 5 / 2 * (N + 2) / 2 ^ 24 with hb
  have hb0 : 0 ≤ b := by positivity
  have e : 3 * ((M : ℚ) + N + 4) / 2 ^ 24 = 6 / 5 * a + 6 / 5 * b := by rw [ha, hb]; ring
  rw [e]
  have h3 : a * (s + 1) ≤ a * ((1 + b) * (y + 1)) := mul_le_mul_of_nonneg_left (by linarith) ha0
  have h4 : a * ((1 + b) * (y + 1)) ≤ (a + b / 20) * (y + 1) := by
    have : a * (1 + b) ≤ a + b / 20 := by nlinarith
    have := mul_le_mul_of_nonneg_right this (by linarith : 0 ≤ y + 1)
    linarith
  have h5 : 0 ≤ a * (y + 1) := by positivity
  have h6 : 0 ≤ b * (y + 1) := by positivity
  linarith

/-- The rounded position is in the image, up to half a pixel. -/
theorem box_position {n newN x : Int} (hn : 1 ≤ n) (hN : 1 ≤ newN) (hN2 : newN ≤ 2 ^ 21) (hx0 : 0 ≤ x)
    (hx : x < newN) {P : ℚ}
    (hP : |P - samplePosition n newN x| ≤ quotientError ((2 : ℚ)⁻¹ ^ 24) * |samplePosition n newN x| + (2 : ℚ) ^ (-150 : Int)) :
    ∃ i : Int, 0 ≤ i ∧ i < n ∧ |i - P| ≤ 1 / 2 := by
  have hq : quotientError ((2 : ℚ)⁻¹ ^ 24) ≤ 31 / 10 / 2 ^ 24 := by unfold quotientError; norm_num
  have hη : (2 : ℚ) ^ (-150 : Int) ≤ 1 / 10 / 2 ^ 24 := by norm_num
  have hnq : (1 : ℚ) ≤ n := by exact_mod_cast hn
  have hNq : (1 : ℚ) ≤ newN := by exact_mod_cast hN
  have hN2q : (newN : ℚ) ≤ 2 ^ 21 := by exact_mod_cast hN2
  have hx0q : (0 : ℚ) ≤ x := by exact_mod_cast hx0
  have hxq : (x : ℚ) + 1 ≤ newN := by exact_mod_cast hx
  set v := samplePosition n newN x with hv
  set g : ℚ := n / newN with hg
  have hg1 : n / 2 ^ 21 ≤ g := by rw [hg]; gcongr
  have ev : v = (x + 1 / 2) * g - 1 / 2 := by rw [hv, hg]; unfold samplePosition; ring
  have hg0 : 0 < g := by positivity
  have eg : newN * g = n := by rw [hg]; field_simp
  have v1 : 1 / 2 * g - 1 / 2 ≤ v := by rw [ev]; nlinarith
  have v2 : v ≤ n - 1 / 2 - 1 / 2 * g := by
    rw [ev, ← eg]
    nlinarith
  have hb : |P - v| ≤ 31 / 10 / 2 ^ 24 * |v| + 1 / 10 / 2 ^ 24 := by
    have := mul_le_mul_of_nonneg_right hq (abs_nonneg v)
    linarith
  obtain ⟨e1, e2⟩ := abs_le.1 hb
  have low : 0 ≤ P + 1 / 2 := by
    rcases le_or_gt 0 v with h | h
    · rw [abs_of_nonneg h] at e1
      linarith
    · rw [abs_of_neg h] at e1
      linarith
  have high : P + 1 / 2 < n := by
    have : |v| ≤ n := by
      rw [abs_le]
      constructor <;> linarith
    linarith
  refine ⟨⌊P + 1 / 2⌋, Int.floor_nonneg.2 low, Int.floor_lt.2 high, ?_⟩
  have f1 := Int.floor_le (P + 1 / 2)
  have f2 := Int.lt_floor_add_one (P + 1 / 2)
  rw [abs_le]
  constructor <;> linarith

/-- The weights of one direction. -/
theorem box_direction_any {n newN : Int} (hn : 1 ≤ n ∧ n ≤ 2 ^ 18) (hN : 1 ≤ newN ∧ newN ≤ 2 ^ 21) :
    ∃ rate, Rational.mk2 (BitVec.ofInt 64 newN) (BitVec.ofInt 64 n) = some rate ∧
      ∀ x, InInterval ⟨0, newN⟩ x → ∃ p S, kernelPosition x rate = some p ∧
        BoxSamples n newN x ((20 * n + 11) / 2 ^ 24) S ∧ S ⊆ spanOf ⟨0, n⟩ ∧
        ∀ i, InInterval ⟨0, n⟩ i → weight float32 (boxOp float32Kernel) rate p i = some (if i ∈ S then 1 else 0) := by
  have hn' : n ≤ 262144 := by have := hn.2; norm_num at this; exact this
  have hN' : newN ≤ 2097152 := by have := hN.2; norm_num at this; exact this
  obtain ⟨rate, e, hc, hv, hpos, r1, r2⟩ := rate_make (n := newN) (d := n) hN.1 (by omega) hn.1 (by omega)
  refine ⟨rate, e, fun x hx => ?_⟩
  have hx0 : 0 ≤ x := hx.1
  have hx1 : x < newN := by have := hx.2; simpa using this
  obtain ⟨p, ep, cp, vp⟩ := C46_position x rate hc hpos (by rw [abs_of_nonneg hx0]; norm_num; omega)
    (by norm_num; omega) (by norm_num; omega)
  have e1 : value p = samplePosition n newN x := by
    rw [vp, hv, div_div_eq_mul_div]
    rfl
  have hnq : (1 : ℚ) ≤ n := by exact_mod_cast hn.1
  have hnq2 : (n : ℚ) ≤ 262144 := by exact_mod_cast hn'
  have hNq : (1 : ℚ) ≤ newN := by exact_mod_cast hN.1
  have hx0q : (0 : ℚ) ≤ x := by exact_mod_cast hx0
  have hxq : (x : ℚ) + 1 ≤ newN := by exact_mod_cast hx1
  -- the position
  set v := samplePosition n newN x with hvd
  have hva : |v| ≤ n := by
    have eg : newN * ((n : ℚ) / newN) = n := by field_simp
    have hg0 : 0 < (n : ℚ) / newN := by positivity
    have ev : v = (x + 1 / 2) * (n / newN) - 1 / 2 := by rw [hvd]; unfold samplePosition; ring
    set g := (n : ℚ) / newN
    rw [ev, abs_le]
    constructor
    · nlinarith
    · nlinarith
  set t := min ((newN : ℚ) / n) 1 with ht
  have t1 : t ≤ 1 := min_le_right _ _
  have t0 : 0 < t := lt_min (by positivity) (by norm_num)
  have hu : (2 : ℚ)⁻¹ ^ 24 ≤ 1 / 8 := by norm_num
  have hη : (2 : ℚ) ^ (-150 : Int) ≤ 1 := by norm_num
  have hΩ : (2 : ℚ) ^ 67 ≤ largestFloat := by unfold largestFloat; norm_num
  set δ : ℚ := (20 * n + 11) / 2 ^ 24 with hδ
  have hδ1 : δ < 1 / 2 := by rw [hδ, div_lt_iff₀ (by norm_num)]; norm_num; linarith
  have pos : ∀ i, InInterval ⟨0, n⟩ i → IsFloat (weight float32 id rate p i) ∧
      |(weight float32 id rate p i).getD 0 - (i - v) * t| ≤ δ := by
    intro i hi
    have i0 : (0 : ℚ) ≤ i := by exact_mod_cast hi.1
    have i1 : (i : ℚ) ≤ n := by
      have : i < 0 + n := hi.2
      exact_mod_cast (by omega : i ≤ n)
    obtain ⟨h1, h2⟩ := C84_weight C84_float hu hη hΩ id id 1 0 (fun s t => by simp) (fun s hs => ⟨hs, by simp⟩) rate p hc hpos cp i
      (by rw [abs_of_nonneg i0]; norm_num; linarith)
    rw [e1, hv] at h2
    refine ⟨h1, h2.trans ?_⟩
    have h3 := position_le (add_nonneg (abs_nonneg (i : ℚ)) (abs_nonneg v))
    rw [zero_add, one_mul]
    refine h3.trans ?_
    rw [abs_of_nonneg i0, hδ, le_div_iff₀ (by norm_num)]
    norm_num
    linarith
  have val : ∀ i, weight float32 (boxOp float32Kernel) rate p i = boxOp float32Kernel (weight float32 id rate p i) := fun i => rfl
  have isSome : ∀ i, InInterval ⟨0, n⟩ i → weight float32 id rate p i = some ((weight float32 id rate p i).getD 0) := by
    intro i hi
    obtain ⟨a, b, -, -, h, -⟩ := (pos i hi).1
    rw [h]
    rfl
  set S := (spanOf ⟨0, n⟩).filter fun i : Int => |(weight float32 id rate p i).getD 0| ≤ 1 / 2 with hS
  have mem : ∀ i, i ∈ S ↔ InInterval ⟨0, n⟩ i ∧ |(weight float32 id rate p i).getD 0| ≤ 1 / 2 := by
    intro i
    rw [hS, Finset.mem_filter]
    exact and_congr_left fun _ => Finset.mem_Ico
  have hval : ∀ i, InInterval ⟨0, n⟩ i → weight float32 (boxOp float32Kernel) rate p i = some (if i ∈ S then 1 else 0) := by
    intro i hi
    rw [val, isSome i hi, boxOp_float]
    congr 1
    have : (i ∈ S) ↔ |(weight float32 id rate p i).getD 0| ≤ 1 / 2 := by rw [mem]; exact and_iff_right hi
    simp only [this]
  have hfar : ∀ i ∈ S, |((i : ℚ) - v) * t| ≤ 1 / 2 + δ := by
    intro i hi
    obtain ⟨a, b⟩ := (mem i).1 hi
    have c := (pos i a).2
    have d := abs_add_le ((i - v) * t - (weight float32 id rate p i).getD 0) ((weight float32 id rate p i).getD 0)
    rw [sub_add_cancel, abs_sub_comm] at d
    linarith
  -- the nearest pixel
  have hne : S.Nonempty := by
    obtain ⟨fp, hp⟩ := C84_float.quotient (by norm_num) p.n.toInt p.d.toInt cp.1
      ((abs_toInt_le _).trans (le_trans (by norm_num) hΩ))
      ((le_abs_self _).trans ((abs_toInt_le _).trans (le_trans (by norm_num) hΩ))) (by
        have a : |((p.n.toInt : ℚ)) / p.d.toInt| ≤ n := by
          have : (p.n.toInt : ℚ) / p.d.toInt = value p := rfl
          rw [this, e1]
          exact hva
        have b : quotientError ((2 : ℚ)⁻¹ ^ 24) ≤ 1 := by unfold quotientError; norm_num
        have := mul_le_mul (by linarith : 1 + quotientError ((2 : ℚ)⁻¹ ^ 24) ≤ 2) a (abs_nonneg _) (by norm_num)
        refine (this.trans ?_).trans hΩ
        norm_num
        linarith)
    obtain ⟨fr, hr⟩ := C84_float.quotient (by norm_num) rate.n.toInt rate.d.toInt hc.1
      ((abs_toInt_le _).trans (le_trans (by norm_num) hΩ))
      ((le_abs_self _).trans ((abs_toInt_le _).trans (le_trans (by norm_num) hΩ))) (by
        have a : |((rate.n.toInt : ℚ)) / rate.d.toInt| ≤ newN := by
          have : (rate.n.toInt : ℚ) / rate.d.toInt = value rate := rfl
          rw [this, hv, abs_of_pos (by positivity)]
          exact div_le_self (by linarith) hnq
        have b : quotientError ((2 : ℚ)⁻¹ ^ 24) ≤ 1 := by unfold quotientError; norm_num
        have := mul_le_mul (by linarith : 1 + quotientError ((2 : ℚ)⁻¹ ^ 24) ≤ 2) a (abs_nonneg _) (by norm_num)
        refine (this.trans ?_).trans hΩ
        have : (newN : ℚ) ≤ 2097152 := by exact_mod_cast hN'
        norm_num
        linarith)
    have ep' : (p.n.toInt : ℚ) / p.d.toInt = v := e1
    have er' : (rate.n.toInt : ℚ) / rate.d.toInt = newN / n := hv
    rw [ep'] at hp
    have hrate : 0 < (newN : ℚ) / n := by positivity
    rw [er', abs_of_pos hrate] at hr
    set P := float32.div (float32.ofIndex p.n.toInt) (float32.ofIndex p.d.toInt) with hPd
    set R := float32.div (float32.ofIndex rate.n.toInt) (float32.ofIndex rate.d.toInt) with hRd
    obtain ⟨a, b, -, -, hPs, -⟩ := fp
    obtain ⟨a', b', -, -, hRs, -⟩ := fr
    simp only [hPs, Option.getD_some] at hp
    simp only [hRs, Option.getD_some] at hr
    set P' : ℚ := a * (2 : ℚ) ^ b
    set R' : ℚ := a' * (2 : ℚ) ^ b'
    have hR0 : 0 ≤ R' := by
      have h3 : (1 : ℚ) / 262144 ≤ newN / n := by
        rw [div_le_div_iff₀ (by norm_num) (by linarith)]
        linarith
      have h4 : quotientError ((2 : ℚ)⁻¹ ^ 24) ≤ 1 / 2 := by unfold quotientError; norm_num
      have h5 : (2 : ℚ) ^ (-150 : Int) ≤ 1 / 2 / 262144 := by norm_num
      have h6 := (abs_le.1 hr).1
      have h7 := mul_le_mul_of_nonneg_right h4 (by linarith : 0 ≤ (newN : ℚ) / n)
      linarith
    obtain ⟨i, i0, i1, hi⟩ := box_position hn.1 hN.1 hN.2 hx0 hx1 hp
    obtain ⟨y, ey, hy⟩ := box_near (S := if 1 < R' then 1 else R') i0 (by norm_num; omega) hi (by split <;> linarith)
      (by split <;> linarith)
    have ew : weight float32 id rate p i = some y := by
      show float32.mul (float32.sub (float32.ofIndex i) P) (float32.min R float32.one) = some y
      rw [hPs, hRs]
      exact ey
    refine ⟨i, (mem i).2 ⟨⟨i0, by show i < 0 + n; omega⟩, ?_⟩⟩
    rw [ew]
    exact hy
  refine ⟨p, S, ep, ⟨?_, hne, ?_, hfar⟩, Finset.filter_subset _ _, hval⟩
  · intro i hi
    obtain ⟨⟨a, b⟩, -⟩ := (mem i).1 hi
    exact ⟨a, by simpa using b⟩
  · intro i a b h
    refine (mem i).2 ⟨⟨a, by simpa using b⟩, ?_⟩
    have c := (pos i ⟨a, by simpa using b⟩).2
    have d := abs_add_le ((weight float32 id rate p i).getD 0 - (i - v) * t) ((i - v) * t)
    rw [sub_add_cancel] at d
    linarith

/-- They are good weights. -/
theorem box_direction {n newN : Int} (hn : 1 ≤ n ∧ n ≤ 2 ^ 18) (hN : 1 ≤ newN ∧ newN ≤ 2 ^ 21) {N : Nat}
    (h1 : 2 ≤ N * min ((newN : ℚ) / n) 1) (h2 : N ≤ 2 ^ 18) :
    ∃ rate, Rational.mk2 (BitVec.ofInt 64 newN) (BitVec.ofInt 64 n) = some rate ∧
      ∀ x, InInterval ⟨0, newN⟩ x → ∃ p S, kernelPosition x rate = some p ∧
        GoodWeights IsFloat (fun x => x.getD 0) ((2 : ℚ)⁻¹ ^ 24) largestFloat N ⟨0, n⟩ (weight float32 (boxOp float32Kernel) rate p) ∧
        condition (fun x => x.getD 0) ⟨0, n⟩ (weight float32 (boxOp float32Kernel) rate p) = 1 ∧
        BoxSamples n newN x ((20 * n + 11) / 2 ^ 24) S ∧ S ⊆ spanOf ⟨0, n⟩ ∧
        ∀ i, InInterval ⟨0, n⟩ i → weight float32 (boxOp float32Kernel) rate p i = some (if i ∈ S then 1 else 0) := by
  obtain ⟨rate, e, hall⟩ := box_direction_any hn hN
  refine ⟨rate, e, fun x hx => ?_⟩
  obtain ⟨p, S, ep, hB, hsub, hval⟩ := hall x hx
  have hne := hB.nonempty
  have hfar := hB.far
  have hnq : (1 : ℚ) ≤ n := by exact_mod_cast hn.1
  have hnq2 : (n : ℚ) ≤ 262144 := by exact_mod_cast hn.2
  have hNq : (1 : ℚ) ≤ newN := by exact_mod_cast hN.1
  set v := samplePosition n newN x with hvd
  set t := min ((newN : ℚ) / n) 1 with ht
  have t0 : 0 < t := lt_min (by positivity) (by norm_num)
  have hΩ : (2 : ℚ) ^ 67 ≤ largestFloat := by unfold largestFloat; norm_num
  set δ : ℚ := (20 * n + 11) / 2 ^ 24 with hδ
  have hδ1 : δ < 1 / 2 := by rw [hδ, div_lt_iff₀ (by norm_num)]; norm_num; linarith
  have hg : ∀ i ∈ spanOf ⟨0, n⟩, (weight float32 (boxOp float32Kernel) rate p i).getD 0 = if i ∈ S then 1 else 0 := by
    intro i hi
    rw [hval i (Finset.mem_Ico.1 hi)]
    rfl
  have sum_eq : ∑ i ∈ spanOf ⟨0, n⟩, (weight float32 (boxOp float32Kernel) rate p i).getD 0 = S.card := by
    rw [Finset.sum_congr rfl hg, Finset.sum_ite_mem, Finset.inter_eq_right.2 hsub]
    simp
  have hcard : (1 : ℚ) ≤ S.card := by exact_mod_cast hne.card_pos
  have wne : weightSum (fun x : Option ℚ => x.getD 0) ⟨0, n⟩ (weight float32 (boxOp float32Kernel) rate p) ≠ 0 := by
    unfold weightSum
    rw [sum_eq]
    linarith
  have nonneg : ∀ i, InInterval ⟨0, n⟩ i → 0 ≤ (weight float32 (boxOp float32Kernel) rate p i).getD 0 := by
    intro i hi
    rw [hval i hi]
    show (0 : ℚ) ≤ if i ∈ S then 1 else 0
    split <;> norm_num
  have cond : condition (fun x : Option ℚ => x.getD 0) ⟨0, n⟩ (weight float32 (boxOp float32Kernel) rate p) = 1 :=
    condition_eq_one wne nonneg
  have close : ∀ i ∈ S, ∀ j ∈ S, j - i < N := by
    intro i hi j hj
    have a := (abs_le.1 (hfar i hi)).1
    have b := (abs_le.1 (hfar j hj)).2
    have c : ((j : ℚ) - i) * t < N * t := by linarith
    have d := lt_of_mul_lt_mul_right c t0.le
    exact_mod_cast d
  have hScard : (S.card : ℚ) ≤ N := by exact_mod_cast card_close S N close
  have hN2 : (N : ℚ) ≤ 262144 := by exact_mod_cast h2
  have hs : sumError ((2 : ℚ)⁻¹ ^ 24) N 1 ≤ 1 / 2 := by
    refine (box_sumError h2).2.trans ?_
    rw [div_le_iff₀ (by norm_num)]
    norm_num
    linarith
  refine ⟨p, S, ep, ⟨?_, ?_, wne, ?_, ?_, ?_⟩, cond, hB, hsub, hval⟩
  · intro i hi
    rw [hval i hi]
    split
    · exact C84_float.one.1
    · exact isFloat_zero
  · intro i j hi hj a b
    have key : ∀ i, InInterval ⟨0, n⟩ i → (weight float32 (boxOp float32Kernel) rate p i).getD 0 ≠ 0 → i ∈ S := by
      intro i hi h
      by_contra c
      exact h (by rw [hg i (Finset.mem_Ico.2 hi), if_neg c])
    exact close i (key i hi a) j (key j hj b)
  · rw [cond]
    linarith
  · have : ∑ i ∈ spanOf ⟨0, n⟩, |(weight float32 (boxOp float32Kernel) rate p i).getD 0| = S.card := by
      rw [← sum_eq]
      exact Finset.sum_congr rfl fun i hi => abs_of_nonneg (nonneg i (Finset.mem_Ico.1 hi))
    rw [this]
    have hp := power_le h2
    have : (1 + (2 : ℚ)⁻¹ ^ 24) ^ N ≤ 2 := by
      refine hp.trans ?_
      have : 33 / 32 * (N : ℚ) / 2 ^ 24 ≤ 1 := by
        rw [div_le_iff₀ (by norm_num)]
        norm_num
        linarith
      linarith
    refine (mul_le_mul this hScard (by linarith) (by norm_num)).trans (le_trans ?_ hΩ)
    norm_num
    linarith
  · rw [cond, div_le_iff₀ (by linarith)]
    have : 2 ^ 67 * (1 / 2) ≤ largestFloat * (1 - sumError ((2 : ℚ)⁻¹ ^ 24) N 1) :=
      mul_le_mul hΩ (by linarith) (by norm_num) (by linarith)
    linarith

/-- Rational numbers, from their value. -/
theorem mk2_eq {n d : BitVec 64} (hd : 0 < d.toInt) {r : Rational} (hr : Canonical r) (hv : value r = (n.toInt : ℚ) / d.toInt) :
    Rational.mk2 n d = some r := by
  obtain ⟨r', e, hr', hv'⟩ := C45_make n d hd
  rw [e, C45_canonical_unique hr' hr (hv'.trans hv.symm)]

theorem position_eq {x : Int} {rate p : Rational} (hc : Canonical rate) (h0 : 0 < value rate) (hx : |x| < 2 ^ 29)
    (hn : rate.n.toInt < 2 ^ 29) (hd : rate.d.toInt < 2 ^ 29) (hp : Canonical p)
    (hv : value p = (x + 1 / 2) / value rate - 1 / 2) : kernelPosition x rate = some p := by
  obtain ⟨p', e, cp, vp⟩ := C46_position x rate hc h0 (by norm_num at hx ⊢; omega) (by norm_num at hn ⊢; omega)
    (by norm_num at hd ⊢; omega)
  rw [e, C45_canonical_unique cp hp (vp.trans hv.symm)]

/-- The weighted mean with these weights. -/
theorem weightedMean_box {w h : Int} {SX SY : Finset Int} (hx : SX ⊆ spanOf ⟨0, w⟩) (hy : SY ⊆ spanOf ⟨0, h⟩)
    {wx wy : Int → Option ℚ} (ex : ∀ i, InInterval ⟨0, w⟩ i → wx i = some (if i ∈ SX then 1 else 0))
    (ey : ∀ i, InInterval ⟨0, h⟩ i → wy i = some (if i ∈ SY then 1 else 0)) (img : Int → Int → ℚ) :
    weightedMean (fun x => x.getD 0) w h wx wy img = average SX SY img := by
  have s : ∀ {n : Int} {S : Finset Int} {u : Int → Option ℚ}, S ⊆ spanOf ⟨0, n⟩ →
      (∀ i, InInterval ⟨0, n⟩ i → u i = some (if i ∈ S then 1 else 0)) →
      ∀ f : Int → ℚ, ∑ i ∈ spanOf ⟨0, n⟩, (u i).getD 0 * f i = ∑ i ∈ S, f i := by
    intro n S u hS hu f
    have : ∀ i ∈ spanOf ⟨0, n⟩, (u i).getD 0 * f i = if i ∈ S then f i else 0 := by
      intro i hi
      rw [hu i (Finset.mem_Ico.1 hi)]
      simp
    rw [Finset.sum_congr rfl this, Finset.sum_ite_mem, Finset.inter_eq_right.2 hS]
  unfold weightedMean average weightSum
  have a : ∀ {n : Int} {S : Finset Int} {u : Int → Option ℚ}, S ⊆ spanOf ⟨0, n⟩ →
      (∀ i, InInterval ⟨0, n⟩ i → u i = some (if i ∈ S then 1 else 0)) → ∑ i ∈ spanOf ⟨0, n⟩, (u i).getD 0 = S.card := by
    intro n S u hS hu
    have := s hS hu fun _ => 1
    simpa using this
  rw [a hx ex, a hy ey]
  congr 1
  rw [← s hx ex]
  refine Finset.sum_congr rfl fun i _ => ?_
  rw [← s hy ey, Finset.mul_sum]
  exact Finset.sum_congr rfl fun j _ => mul_assoc _ _ _

end Nda
