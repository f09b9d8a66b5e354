import Verif.Lemmas.Rounding
import Verif.Spec.RoundingBinary
/-
Lemmas on binary floating-point numbers with bounded exponents, gradual underflow and overflow (C82).
-/
namespace Nda
open Spec
variable {rnd : ℚ → Int} {p : Nat} {emin : Int} {Ω : ℚ}

theorem roundEven_nearest : ToNearest roundEven := by
  intro y
  have h0 := Int.fract_nonneg y
  have h1 := Int.fract_lt_one y
  have h2 : y = ⌊y⌋ + Int.fract y := (Int.floor_add_fract y).symm
  unfold roundEven
  split_ifs <;> rw [abs_le] <;> push_cast <;> constructor <;> linarith

theorem Spec.ToNearest.le (h : ToNearest rnd) {y : ℚ} {n : Int} (hy : y ≤ n) : rnd y ≤ n := by
  have h1 := (abs_le.1 (h y)).1
  have h2 : (rnd y : ℚ) < n + 1 := by linarith
  have : rnd y < n + 1 := by exact_mod_cast h2
  omega

theorem Spec.ToNearest.ge (h : ToNearest rnd) {y : ℚ} {n : Int} (hy : (n : ℚ) ≤ y) : n ≤ rnd y := by
  have h1 := (abs_le.1 (h y)).2
  have h2 : (n : ℚ) < rnd y + 1 := by linarith
  have : n < rnd y + 1 := by exact_mod_cast h2
  omega

theorem Spec.ToNearest.int (h : ToNearest rnd) (n : Int) : rnd (n : ℚ) = n :=
  le_antisymm (h.le le_rfl) (h.ge le_rfl)

theorem Spec.ToNearest.abs_le (h : ToNearest rnd) {y : ℚ} {n : Int} (hy : |y| ≤ n) : |rnd y| ≤ n := by
  rw [_root_.abs_le] at hy ⊢
  exact ⟨h.ge (by push_cast; exact hy.1), h.le hy.2⟩

theorem two_zpow_pos (e : Int) : (0 : ℚ) < (2 : ℚ) ^ e := zpow_pos (by norm_num) _

/-- The error of rounding. -/
theorem nearestBinary_error (h : ToNearest rnd) (x : ℚ) :
    |nearestBinary rnd p emin x - x| ≤ (2 : ℚ)⁻¹ ^ p * |x| ∨
    (lastDigit p emin x = emin ∧ |nearestBinary rnd p emin x - x| ≤ (2 : ℚ) ^ (emin - 1)) := by
  unfold nearestBinary
  set q := lastDigit p emin x with hq
  have hs0 := two_zpow_pos q
  have h1 := h (x / (2 : ℚ) ^ q)
  have h2 : (rnd (x / (2 : ℚ) ^ q) : ℚ) * (2 : ℚ) ^ q - x =
      -((x / (2 : ℚ) ^ q - rnd (x / (2 : ℚ) ^ q)) * (2 : ℚ) ^ q) := by
    rw [sub_mul, div_mul_cancel₀ _ hs0.ne']
    ring
  rw [h2, abs_neg, abs_mul, abs_of_pos hs0]
  have h3 : |x / (2 : ℚ) ^ q - rnd (x / (2 : ℚ) ^ q)| * (2 : ℚ) ^ q ≤ 1 / 2 * (2 : ℚ) ^ q :=
    mul_le_mul_of_nonneg_right h1 hs0.le
  by_cases hle : Int.log 2 |x| + 1 - p ≤ emin
  · right
    have hqe : q = emin := max_eq_right hle
    refine ⟨hqe, h3.trans (le_of_eq ?_)⟩
    rw [hqe, zpow_sub₀ (by norm_num), zpow_one]
    ring
  · left
    have hqe : q = Int.log 2 |x| + 1 - p := max_eq_left (by omega)
    by_cases hx : x = 0
    · have e0 : rnd 0 = 0 := by simpa using h.int 0
      simp [hx, e0]
    · have hlog : (2 : ℚ) ^ Int.log 2 |x| ≤ |x| := by
        have := Int.zpow_log_le_self (b := 2) (r := |x|) (by norm_num) (abs_pos.2 hx)
        exact_mod_cast this
      refine h3.trans ?_
      have e : (2 : ℚ) ^ q = 2 * ((2 : ℚ)⁻¹ ^ p * (2 : ℚ) ^ Int.log 2 |x|) := by
        rw [hqe, zpow_sub₀ (by norm_num), zpow_add₀ (by norm_num), zpow_one, zpow_natCast, inv_pow]
        ring
      rw [e]
      have h4 : (2 : ℚ)⁻¹ ^ p * (2 : ℚ) ^ Int.log 2 |x| ≤ (2 : ℚ)⁻¹ ^ p * |x| :=
        mul_le_mul_of_nonneg_left hlog (by positivity)
      linarith

/-- Multiples of `2^emin` that are small are not rounded. -/
theorem nearestBinary_exact (h : ToNearest rnd) {x : ℚ} (n : Int) (hx : x = n * (2 : ℚ) ^ emin)
    (hq : lastDigit p emin x = emin) : nearestBinary rnd p emin x = x := by
  unfold nearestBinary
  rw [hq]
  have : x / (2 : ℚ) ^ emin = n := by rw [hx, mul_div_cancel_right₀ _ (two_zpow_pos emin).ne']
  rw [this, h.int, ← hx]

/-- The rounded number is one of the format. -/
theorem nearestBinary_isBinary (h : ToNearest rnd) {N E : Int} (hN : 2 ^ p ≤ 2 * N) (hN' : N < 2 ^ p) (hE : emin ≤ E)
    (hΩ : Ω = N * (2 : ℚ) ^ E) {x : ℚ} (hx : |x| ≤ Ω) :
    IsBinary p emin Ω (finiteOr Ω (nearestBinary rnd p emin x)) ∧
    finiteOr Ω (nearestBinary rnd p emin x) = some (nearestBinary rnd p emin x) := by
  have hN0 : 0 < N := by
    have : (0 : Int) < 2 ^ p := by positivity
    omega
  have hΩ0 : 0 ≤ Ω := (abs_nonneg _).trans hx
  by_cases h0 : x = 0
  · have e0 : nearestBinary rnd p emin x = 0 := by
      have : rnd 0 = 0 := by simpa using h.int 0
      unfold nearestBinary
      rw [h0, zero_div, this]
      simp
    have e1 : finiteOr Ω (nearestBinary rnd p emin x) = some 0 := by
      rw [e0]
      exact if_pos (by simpa using hΩ0)
    refine ⟨⟨0, emin, le_rfl, by simp, ?_, by simpa using hΩ0⟩, by rw [e1, e0]⟩
    rw [e1]
    simp
  set q := lastDigit p emin x with hq
  have hs0 := two_zpow_pos q
  have hlog : (2 : ℚ) ^ Int.log 2 |x| ≤ |x| := by
    have := Int.zpow_log_le_self (b := 2) (r := |x|) (by norm_num) (abs_pos.2 h0)
    exact_mod_cast this
  have hlog' : |x| < (2 : ℚ) ^ (Int.log 2 |x| + 1) := by
    have := Int.lt_zpow_succ_log_self (b := 2) (by norm_num) |x|
    exact_mod_cast this
  have hqE : q ≤ E := by
    refine max_le ?_ hE
    have hlt : |x| < (2 : ℚ) ^ (E + p) := by
      refine hx.trans_lt ?_
      rw [hΩ, zpow_add₀ (by norm_num), zpow_natCast, mul_comm]
      have : (N : ℚ) < 2 ^ p := by exact_mod_cast hN'
      exact mul_lt_mul_of_pos_left this (two_zpow_pos E)
    have := (zpow_lt_zpow_iff_right₀ (by norm_num : (1 : ℚ) < 2)).1 (hlog.trans_lt hlt)
    omega
  have hqx : Int.log 2 |x| + 1 ≤ q + p := by
    have : Int.log 2 |x| + 1 - p ≤ q := le_max_left _ _
    omega
  have hdig : |rnd (x / (2 : ℚ) ^ q)| ≤ 2 ^ p := by
    refine h.abs_le ?_
    rw [abs_div, abs_of_pos hs0, div_le_iff₀ hs0]
    refine hlog'.le.trans ((zpow_le_zpow_right₀ (by norm_num) hqx).trans (le_of_eq ?_))
    rw [zpow_add₀ (by norm_num), zpow_natCast, mul_comm]
    push_cast
    rfl
  have hbig : |(rnd (x / (2 : ℚ) ^ q) : ℚ) * (2 : ℚ) ^ q| ≤ Ω := by
    obtain ⟨t, ht⟩ := Int.le.dest hqE
    have hΩq : Ω = ((N * 2 ^ t : Int) : ℚ) * (2 : ℚ) ^ q := by
      rw [hΩ, ← ht, zpow_add₀ (by norm_num), zpow_natCast]
      push_cast
      ring
    have : |rnd (x / (2 : ℚ) ^ q)| ≤ N * 2 ^ t := by
      refine h.abs_le ?_
      rw [abs_div, abs_of_pos hs0, div_le_iff₀ hs0, ← hΩq]
      exact hx
    rw [abs_mul, abs_of_pos hs0, hΩq]
    refine mul_le_mul_of_nonneg_right ?_ hs0.le
    exact_mod_cast this
  have e1 : finiteOr Ω (nearestBinary rnd p emin x) = some (nearestBinary rnd p emin x) := if_pos hbig
  exact ⟨⟨_, q, le_max_right _ _, hdig, e1, hbig⟩, e1⟩

/-- A number of the format is a multiple of the smallest one. -/
theorem isBinary_multiple {x : Option ℚ} (h : IsBinary p emin Ω x) : ∃ n : Int, x = some (n * (2 : ℚ) ^ emin) := by
  obtain ⟨n, e, he, -, rfl, -⟩ := h
  obtain ⟨t, rfl⟩ := Int.le.dest he
  refine ⟨n * 2 ^ t, ?_⟩
  rw [zpow_add₀ (by norm_num), zpow_natCast]
  push_cast
  congr 1
  ring

/-- IEEE 754 arithmetic, without flags and signs of zeros, rounds as `Rounds` says. -/
theorem binaryOps_rounds (h : ToNearest rnd) {N E : Int} (hN : 2 ^ p ≤ 2 * N) (hN' : N < 2 ^ p) (hE : emin ≤ E)
    (hΩ : Ω = N * (2 : ℚ) ^ E) :
    Rounds (binaryOps rnd p emin Ω) (IsBinary p emin Ω) (fun x => x.getD 0) ((2 : ℚ)⁻¹ ^ p) ((2 : ℚ) ^ (emin - 1)) Ω where
  unit := by positivity
  underflow := (two_zpow_pos _).le
  zero := by
    have hN0 : 0 < N := by
      have : (0 : Int) < 2 ^ p := by positivity
      omega
    have hN0q : (0 : ℚ) < N := by exact_mod_cast hN0
    have := two_zpow_pos E
    exact ⟨⟨0, emin, le_rfl, by simp, by simp [binaryOps], by simp [hΩ]; positivity⟩, rfl⟩
  add a b ha hb hx := by
    obtain ⟨m, rfl⟩ := isBinary_multiple ha
    obtain ⟨n, rfl⟩ := isBinary_multiple hb
    obtain ⟨h1, h2⟩ := nearestBinary_isBinary h hN hN' hE hΩ hx
    refine ⟨h1, ?_⟩
    show |(finiteOr Ω (nearestBinary rnd p emin (m * (2 : ℚ) ^ emin + n * (2 : ℚ) ^ emin))).getD 0 - _| ≤ _
    simp only [Option.getD_some] at h2 ⊢
    rw [h2, Option.getD_some]
    rcases nearestBinary_error h (p := p) (emin := emin) (m * (2 : ℚ) ^ emin + n * (2 : ℚ) ^ emin) with he | ⟨hq, -⟩
    · exact he
    · rw [nearestBinary_exact h (m + n) (by push_cast; ring) hq, sub_self, abs_zero]
      positivity
  mul a b ha hb hx := by
    obtain ⟨m, rfl⟩ := isBinary_multiple ha
    obtain ⟨n, rfl⟩ := isBinary_multiple hb
    obtain ⟨h1, h2⟩ := nearestBinary_isBinary h hN hN' hE hΩ hx
    refine ⟨h1, ?_⟩
    show |(finiteOr Ω (nearestBinary rnd p emin (m * (2 : ℚ) ^ emin * (n * (2 : ℚ) ^ emin)))).getD 0 - _| ≤ _
    simp only [Option.getD_some] at h2 ⊢
    rw [h2, Option.getD_some]
    have hη := (two_zpow_pos (emin - 1)).le
    rcases nearestBinary_error h (p := p) (emin := emin) (m * (2 : ℚ) ^ emin * (n * (2 : ℚ) ^ emin)) with he | ⟨-, he⟩
    · linarith
    · have : (0 : ℚ) ≤ (2 : ℚ)⁻¹ ^ p * |m * (2 : ℚ) ^ emin * (n * (2 : ℚ) ^ emin)| := by positivity
      linarith
  lt a b ha hb := by
    obtain ⟨m, rfl⟩ := isBinary_multiple ha
    obtain ⟨n, rfl⟩ := isBinary_multiple hb
    exact decide_eq_true_iff

end Nda
