import Verif.Lemmas.Ieee
import Mathlib.Tactic.FieldSimp
/-
Lemmas on the rounding of times by `benchmark` (C93).
-/
namespace Nda
open Spec

/-- Finite `double`s. -/
def IsDouble (x : Ieee) : Prop := IsBinary 53 (-1074) largestDouble x.finite

theorem double_lit : ieeeDouble.lit 1000000000 = .num 1000000000 ∧ ieeeDouble.lit 1 = .num 1 ∧
    ieeeDouble.mul (ieeeDouble.lit 1) (ieeeDouble.lit 2) = .num 2 := by decide +kernel

theorem isDouble_num : IsDouble (.num 1000000000) ∧ IsDouble (.num 2) ∧ IsDouble (.num 1) := by
  have hL := largestDouble_ge
  have key : ∀ n : Int, |n| ≤ 2 ^ 53 → IsDouble (.num n) := by
    intro n hn
    refine ⟨n, 0, by norm_num, hn, ?_, ?_⟩
    · rw [zpow_zero, mul_one]; rfl
    · rw [zpow_zero, mul_one]
      have : |(n : ℚ)| ≤ 2 ^ 53 := by exact_mod_cast hn
      refine this.trans (le_trans (by norm_num) hL)
  exact ⟨by simpa using key 1000000000 (by norm_num), by simpa using key 2 (by norm_num), by simpa using key 1 (by norm_num)⟩

theorem double_eta : (0 : ℚ) ≤ (2 : ℚ) ^ (-1075 : Int) ∧ (2 : ℚ) ^ (-1075 : Int) ≤ (2 : ℚ)⁻¹ ^ 200 := by
  refine ⟨by positivity, ?_⟩
  rw [inv_pow, ← zpow_natCast, ← zpow_neg]
  exact zpow_le_zpow_right₀ (by norm_num) (by norm_num)

/-- Relative errors of quotients. -/
theorem quotient_near {a b d x u : ℚ} (hx : 0 < x) (hu0 : 0 ≤ u) (hu : u ≤ 1 / 1000) (ha : |a - d| ≤ u * |d|)
    (hb : |b - x| ≤ 3 * u * x) : 0 < b ∧ |a / b - d / x| ≤ 5 * u * |d / x| := by
  have hb' := abs_le.1 hb
  have hb0 : 0 < b := by nlinarith [hb'.1]
  refine ⟨hb0, ?_⟩
  have e : a / b - d / x = ((a - d) * x + d * (x - b)) / (b * x) := by
    field_simp
    ring
  rw [e, abs_div, abs_div, abs_of_pos (mul_pos hb0 hx), abs_of_pos hx, div_le_iff₀ (mul_pos hb0 hx)]
  have h1 : |(a - d) * x + d * (x - b)| ≤ u * |d| * x + |d| * (3 * u * x) := by
    refine (abs_add_le _ _).trans (add_le_add ?_ ?_)
    · rw [abs_mul, abs_of_pos hx]
      exact mul_le_mul_of_nonneg_right ha hx.le
    · rw [abs_mul, abs_sub_comm x b]
      exact mul_le_mul_of_nonneg_left hb (abs_nonneg _)
  refine h1.trans ?_
  have e2 : 5 * u * (|d| / x) * (b * x) = 5 * u * |d| * b := by field_simp
  rw [e2]
  have h2 : 0 ≤ u * |d| := by positivity
  have h3 : 4 * x ≤ 5 * b := by nlinarith [hb'.1]
  calc u * |d| * x + |d| * (3 * u * x) = u * |d| * (4 * x) := by ring
    _ ≤ u * |d| * (5 * b) := mul_le_mul_of_nonneg_left h3 h2
    _ = 5 * u * |d| * b := by ring

/-- The time per iteration, up to rounding. -/
theorem time_near (d it : Int) (hd0 : d ≠ 0) (hd : |d| ≤ 9223372036854775807) (h1 : 1 ≤ it) (h9 : it ≤ 1000000000) :
    IsDouble (timePerIteration ieeeDouble d it) ∧
    |(timePerIteration ieeeDouble d it).value - d / (it * 1000000000)| ≤
      7 * (2 : ℚ)⁻¹ ^ 53 * |(d / (it * 1000000000) : ℚ)| := by
  have R := ieeeDouble_rounds
  have hL := largestDouble_ge
  obtain ⟨hη0, hη⟩ := double_eta
  have hdq : |(d : ℚ)| ≤ 9223372036854775807 := by exact_mod_cast hd
  have hd1 : (1 : ℚ) ≤ |(d : ℚ)| := by exact_mod_cast Int.one_le_abs hd0
  have hi1 : (1 : ℚ) ≤ it := by exact_mod_cast h1
  have hi9 : (it : ℚ) ≤ 1000000000 := by exact_mod_cast h9
  obtain ⟨fa, ea⟩ := R.ofIndex d (hdq.trans (le_trans (by norm_num) hL))
  obtain ⟨fi, ei⟩ := R.ofIndex it (by rw [abs_of_pos (by linarith)]; exact hi9.trans (le_trans (by norm_num) hL))
  unfold timePerIteration
  rw [double_lit.1]
  set a := ieeeDouble.ofIndex d
  set i := ieeeDouble.ofIndex it
  set η := (2 : ℚ) ^ (-1075 : Int)
  rw [abs_of_pos (by linarith : (0 : ℚ) < it)] at ei
  have ei' := abs_le.1 ei
  have hiv : 0 ≤ i.value ∧ i.value ≤ 1000000001 := by
    constructor <;> nlinarith [ei'.1, ei'.2]
  obtain ⟨fb, eb⟩ := R.mul i (.num 1000000000) fi isDouble_num.1 (by
    show |i.value * 1000000000| ≤ _
    rw [abs_of_nonneg (by linarith)]
    exact le_trans (by linarith [hiv.2] : i.value * 1000000000 ≤ 2 ^ 100) hL)
  set b := ieeeDouble.mul i (.num 1000000000)
  have hev : (Ieee.num 1000000000).value = 1000000000 := rfl
  rw [hev, abs_of_nonneg (by linarith : (0 : ℚ) ≤ i.value * 1000000000)] at eb
  have hb : |b.value - it * 1000000000| ≤ 3 * (2 : ℚ)⁻¹ ^ 53 * (it * 1000000000) := by
    have e : b.value - it * 1000000000 = (b.value - i.value * 1000000000) + (i.value - it) * 1000000000 := by ring
    rw [e]
    refine (abs_add_le _ _).trans ?_
    rw [abs_mul, abs_of_pos (by norm_num : (0 : ℚ) < 1000000000)]
    have : η ≤ (2 : ℚ)⁻¹ ^ 53 / 2 := hη.trans (by norm_num)
    have := mul_le_mul_of_nonneg_right ei (by norm_num : (0 : ℚ) ≤ 1000000000)
    norm_num at *
    nlinarith [ei'.2]
  obtain ⟨hb0, hq⟩ := quotient_near (a := a.value) (by linarith : (0 : ℚ) < it * 1000000000) (by positivity) (by norm_num) ea hb
  set q : ℚ := d / (it * 1000000000) with hqd
  have hq1 : (1 : ℚ) / 1000000000000000000 ≤ |q| := by
    rw [hqd, abs_div, abs_of_pos (by linarith : (0 : ℚ) < it * 1000000000), div_le_div_iff₀ (by norm_num) (by linarith)]
    nlinarith
  have hq2 : |q| ≤ 9223372036854775807 := by
    rw [hqd, abs_div, abs_of_pos (by linarith : (0 : ℚ) < it * 1000000000), div_le_iff₀ (by linarith)]
    nlinarith
  have hab : |a.value / b.value| ≤ |q| + 5 * (2 : ℚ)⁻¹ ^ 53 * |q| := by
    have := abs_sub_abs_le_abs_sub (a.value / b.value) q
    linarith
  obtain ⟨ft, et⟩ := R.div a b fa fb hb0.ne' (by
    refine hab.trans (le_trans ?_ hL)
    norm_num
    linarith)
  refine ⟨ft, ?_⟩
  set t := ieeeDouble.div a b
  have e : t.value - q = (t.value - a.value / b.value) + (a.value / b.value - q) := by ring
  rw [e]
  refine (abs_add_le _ _).trans ?_
  have h3 : η ≤ (2 : ℚ)⁻¹ ^ 54 * |q| := hη.trans (by
    refine le_trans ?_ (mul_le_mul_of_nonneg_left hq1 (by positivity))
    norm_num)
  have h4 := mul_le_mul_of_nonneg_left hab (by positivity : (0 : ℚ) ≤ (2 : ℚ)⁻¹ ^ 53)
  norm_num at *
  linarith

/-- The number of iterations of the next trial. -/
theorem next_near (t : Ieee) (q : ℚ) (it : Int) (ft : IsDouble t) (ht : |t.value - q| ≤ 7 * (2 : ℚ)⁻¹ ^ 53 * |q|)
    (hq : 1 / 1000000000000000000 ≤ |q|) (h1 : 1 ≤ it) (h9 : it ≤ 1000000000) :
    ∃ next, nextIterations ieeeDouble t it = some next ∧ it ≤ next ∧ next ≤ it * 10 := by
  have R := ieeeDouble_rounds
  have hL := largestDouble_ge
  obtain ⟨hη0, hη⟩ := double_eta
  have hta : 999 / 1000 / 1000000000000000000 ≤ |t.value| := by
    have := abs_sub_abs_le_abs_sub q t.value
    rw [abs_sub_comm] at this
    norm_num at *
    linarith
  have ht0 : 0 < |t.value| := lt_of_lt_of_le (by norm_num) hta
  have h2t : |2 / t.value| ≤ 2002002002002002003 := by
    rw [abs_div, abs_of_pos (by norm_num : (0 : ℚ) < 2), div_le_iff₀ ht0]
    linarith
  obtain ⟨fr, er⟩ := R.div (.num 2) t isDouble_num.2.1 ft (abs_pos.1 ht0) (by
    show |2 / t.value| ≤ _
    exact h2t.trans (le_trans (by norm_num) hL))
  have hev : (Ieee.num 2).value = 2 := rfl
  rw [hev] at er
  have hr := Ieee.of_finite fr
  unfold nextIterations
  rw [double_lit.2.2]
  set r := ieeeDouble.div (.num 2) t
  have hrv : |r.value| ≤ 2100000000000000000 := by
    have := abs_sub_abs_le_abs_sub r.value (2 / t.value)
    norm_num at *
    linarith
  have hc : -2100000000000000000 ≤ ⌈r.value⌉ ∧ ⌈r.value⌉ ≤ 2100000000000000000 := by
    have := abs_le.1 hrv
    constructor
    · have h : (-2100000000000000000 : ℚ) ≤ ⌈r.value⌉ := by linarith [Int.le_ceil r.value]
      exact_mod_cast h
    · exact Int.ceil_le.2 (by push_cast; linarith)
  rw [hr]
  refine ⟨min (max ⌈r.value⌉ it) (it * 10), ?_, by omega, by omega⟩
  show (longValue ⌈r.value⌉).bind (fun next => (longValue (it * 10)).bind fun most => some (min (max next it) most)) = _
  unfold longValue
  rw [if_pos (by omega), if_pos (by omega)]
  rfl

/-- Whether the last trial was long enough. -/
theorem long_enough (d it : Int) (t : Ieee) (ft : IsDouble t)
    (ht : |t.value - d / (it * 1000000000)| ≤ 7 * (2 : ℚ)⁻¹ ^ 53 * |(d / (it * 1000000000) : ℚ)|)
    (hd : |d| ≤ 9223372036854775807) (h1 : 1 ≤ it) (h9 : it ≤ 1000000000)
    (h : ieeeDouble.lt (ieeeDouble.lit 1) (ieeeDouble.mul t (ieeeDouble.ofIndex it)) = true) : 999999999 < d := by
  have R := ieeeDouble_rounds
  have hL := largestDouble_ge
  obtain ⟨hη0, hη⟩ := double_eta
  have hdq : |(d : ℚ)| ≤ 9223372036854775807 := by exact_mod_cast hd
  have hi1 : (1 : ℚ) ≤ it := by exact_mod_cast h1
  have hi9 : (it : ℚ) ≤ 1000000000 := by exact_mod_cast h9
  obtain ⟨fi, ei⟩ := R.ofIndex it (by rw [abs_of_pos (by linarith)]; exact hi9.trans (le_trans (by norm_num) hL))
  set i := ieeeDouble.ofIndex it
  rw [abs_of_pos (by linarith : (0 : ℚ) < it)] at ei
  set q : ℚ := d / (it * 1000000000) with hqd
  have hqi : q * it = d / 1000000000 := by
    rw [hqd]
    field_simp
  have hqi' : |q| * it = |(d : ℚ)| / 1000000000 := by
    have := congrArg abs hqi
    rwa [abs_mul, abs_of_pos (by linarith : (0 : ℚ) < it), abs_div (d : ℚ) 1000000000,
      abs_of_pos (by norm_num : (0 : ℚ) < 1000000000)] at this
  have hti : |t.value * i.value - d / 1000000000| ≤ 9 * (2 : ℚ)⁻¹ ^ 53 * (|(d : ℚ)| / 1000000000) := by
    have e : t.value * i.value - d / 1000000000 = (t.value - q) * it + (t.value - q) * (i.value - it) +
        q * (i.value - it) := by rw [← hqi]; ring
    rw [e]
    refine (abs_add_le _ _).trans ((add_le_add_left (abs_add_le _ _) _).trans ?_)
    rw [abs_mul, abs_mul, abs_mul, abs_of_pos (by linarith : (0 : ℚ) < it), ← hqi']
    have hq0 := abs_nonneg q
    have a1 := mul_le_mul_of_nonneg_right ht (by linarith : (0 : ℚ) ≤ it)
    have a2 := mul_le_mul ht ei (abs_nonneg _) (by positivity)
    have a3 := mul_le_mul_of_nonneg_left ei hq0
    have a4 : 0 ≤ |q| * it := by positivity
    have e2 : 7 * (2 : ℚ)⁻¹ ^ 53 * |q| * ((2 : ℚ)⁻¹ ^ 53 * it) = 7 * (2 : ℚ)⁻¹ ^ 106 * (|q| * it) := by ring
    rw [e2] at a2
    have e3 : 7 * (2 : ℚ)⁻¹ ^ 53 * |q| * it = 7 * (2 : ℚ)⁻¹ ^ 53 * (|q| * it) := by ring
    rw [e3] at a1
    have e4 : |q| * ((2 : ℚ)⁻¹ ^ 53 * it) = (2 : ℚ)⁻¹ ^ 53 * (|q| * it) := by ring
    rw [e4] at a3
    generalize |q| * it = z at *
    norm_num at *
    linarith
  have hd0 := abs_nonneg (d : ℚ)
  have hb := abs_sub_abs_le_abs_sub (t.value * i.value) (d / 1000000000 : ℚ)
  rw [abs_div, abs_of_pos (by norm_num : (0 : ℚ) < 1000000000)] at hb
  obtain ⟨fm, em⟩ := R.mul t i ft fi (by
    refine le_trans ?_ hL
    norm_num at *
    linarith)
  rw [double_lit.2.1, Ieee.of_finite fm] at h
  have h' : 1 < (ieeeDouble.mul t i).value := of_decide_eq_true h
  generalize (ieeeDouble.mul t i).value = v at *
  by_contra hcon
  have hdle : (d : ℚ) ≤ 999999999 := by exact_mod_cast not_lt.1 hcon
  have h1v : v - t.value * i.value ≤ (2 : ℚ)⁻¹ ^ 53 * |t.value * i.value| + (2 : ℚ)⁻¹ ^ 200 :=
    (abs_le.1 em).2.trans (by linarith)
  have h2v := (abs_le.1 hti).2
  have h3v := hb.trans hti
  clear em hti hb R hη hη0
  generalize t.value * i.value = w at *
  generalize |w| = w' at *
  have hcase : |(d : ℚ)| = d ∨ (|(d : ℚ)| = -d ∧ (d : ℚ) ≤ 0) := by
    rcases le_or_gt 0 (d : ℚ) with hd1 | hd1
    · exact Or.inl (abs_of_nonneg hd1)
    · exact Or.inr ⟨abs_of_neg hd1, hd1.le⟩
  norm_num at h1v h2v h3v
  rcases hcase with hd1 | ⟨hd1, hd2⟩
  · rw [hd1] at h2v h3v
    linarith
  · rw [hd1] at h2v h3v
    linarith

theorem repeatOp_add {σ : Type} (op : σ → Option σ) (m n : Nat) (s : σ) :
    repeatOp op (m + n) s = (repeatOp op m s).bind (repeatOp op n) := by
  induction m generalizing s with
  | zero => rw [Nat.zero_add]; rfl
  | succ m ih =>
    rw [Nat.succ_add]
    show (op s).bind (repeatOp op (m + n)) = ((op s).bind (repeatOp op m)).bind _
    cases h : op s with
    | none => rfl
    | some s' => exact ih s'

/-- What `benchmark` did, from a trial on: `n` calls in total, the last trial was `k`, of `it` iterations, and `t` is
its time per iteration. -/
structure Trials (clock : Nat → Int) (first : Int) (n : Nat) (t : Ieee) (k : Nat) (it : Int) : Prop where
  least : first ≤ it ∧ it ≤ n
  trial : k < 10
  time : IsDouble t ∧ |t.value - clock k / (it * 1000000000)| ≤ 7 * (2 : ℚ)⁻¹ ^ 53 * |(clock k / (it * 1000000000) : ℚ)|
  last : k = 9 ∨ 999999999 < clock k

theorem benchmark_trials {clock : Nat → Int} (hc : Measured clock) :
    ∀ (left trial : Nat) (it : Int) (t0 : Ieee), left ≠ 0 → trial + left = 10 → 1 ≤ it → it * 10 ^ left ≤ 10 ^ 10 →
      ∃ n t k it', Trials clock it n t k it' ∧ 9 * (n : Int) ≤ it * (10 ^ left - 1) ∧
        ∀ {σ : Type} (op : σ → Option σ) (s : σ), benchmarkLoop ieeeDouble op clock left trial it t0 s =
          (repeatOp op n s).map fun s => (t, s)
  | 0, _, _, _, h, _, _, _ => absurd rfl h
  | left + 1, trial, it, t0, _, ht, h1, h10 => by
    have hp : (1 : Int) ≤ 10 ^ left := one_le_pow₀ (by norm_num)
    have h9 : it ≤ 1000000000 := by
      rw [pow_succ] at h10
      nlinarith
    obtain ⟨hd0, hd⟩ := hc trial (by omega)
    obtain ⟨ft, et⟩ := time_near (clock trial) it hd0 hd h1 h9
    have hrun : ∀ {σ : Type} (op : σ → Option σ) (s : σ), benchmarkTrial op it s = repeatOp op it.toNat s := by
      intro σ op s
      unfold benchmarkTrial
      rw [if_pos (by omega)]
    cases hlt : ieeeDouble.lt (ieeeDouble.lit 1)
        (ieeeDouble.mul (timePerIteration ieeeDouble (clock trial) it) (ieeeDouble.ofIndex it)) with
    | true =>
      refine ⟨it.toNat, _, trial, it, ⟨⟨le_rfl, by omega⟩, by omega, ⟨ft, et⟩,
        Or.inr (long_enough _ _ _ ft et hd h1 h9 hlt)⟩, ?_, fun op s => ?_⟩
      · rw [Int.toNat_of_nonneg (by omega), pow_succ]
        nlinarith
      · unfold benchmarkLoop
        rw [hrun]
        dsimp only
        simp only [hlt, if_true]
        cases repeatOp op it.toNat s <;> rfl
    | false =>
      have hq : (1 : ℚ) / 1000000000000000000 ≤ |(clock trial / (it * 1000000000) : ℚ)| := by
        have hi1 : (1 : ℚ) ≤ it := by exact_mod_cast h1
        have hi9 : (it : ℚ) ≤ 1000000000 := by exact_mod_cast h9
        have hd1 : (1 : ℚ) ≤ |(clock trial : ℚ)| := by exact_mod_cast Int.one_le_abs hd0
        rw [abs_div, abs_of_pos (by linarith : (0 : ℚ) < it * 1000000000), div_le_div_iff₀ (by norm_num) (by linarith)]
        nlinarith
      obtain ⟨next, en, hn1, hn2⟩ := next_near _ _ it ft et hq h1 h9
      rcases Nat.eq_zero_or_pos left with rfl | hl
      · refine ⟨it.toNat, _, trial, it, ⟨⟨le_rfl, by omega⟩, by omega, ⟨ft, et⟩, Or.inl (by omega)⟩, by omega,
          fun op s => ?_⟩
        unfold benchmarkLoop
        rw [hrun]
        dsimp only
        simp only [hlt, en]
        cases repeatOp op it.toNat s <;> rfl
      · obtain ⟨n, t, k, it', hT, hn, h⟩ := benchmark_trials hc left (trial + 1) next
          (timePerIteration ieeeDouble (clock trial) it) (by omega) (by omega) (by omega) (by
            rw [pow_succ] at h10
            nlinarith)
        refine ⟨it.toNat + n, t, k, it', ⟨⟨by have := hT.least.1; omega, by have := hT.least.2; push_cast; omega⟩,
          hT.trial, hT.time, hT.last⟩, ?_, fun op s => ?_⟩
        · push_cast
          rw [Int.toNat_of_nonneg (by omega), pow_succ]
          nlinarith
        · unfold benchmarkLoop
          rw [hrun, repeatOp_add]
          dsimp only
          simp only [hlt, en]
          cases repeatOp op it.toNat s with
          | none => rfl
          | some s' => exact h op s'

end Nda
