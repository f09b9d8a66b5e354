import Verif.Model.Rational
import Mathlib.Tactic.Ring
import Mathlib.Tactic.Linarith
import Mathlib.Algebra.Order.Ring.Int
import Mathlib.Algebra.Order.Ring.Abs
/-
Lemmas about the checked two's-complement operations (C44, C45).
-/
namespace Nda
variable {w : Nat}

/-- `z` is representable in `w` bits, two's complement. -/
def Fit (w : Nat) (z : Int) : Prop := -2 ^ (w - 1) ≤ z ∧ z < 2 ^ (w - 1)

theorem fit_toInt (a : BitVec w) : Fit w a.toInt := ⟨BitVec.le_toInt a, BitVec.toInt_lt⟩

theorem cadd_some {a b : BitVec w} (h : Fit w (a.toInt + b.toInt)) :
    cadd a b = some (a + b) ∧ (a + b).toInt = a.toInt + b.toInt := by
  have : ¬ a.saddOverflow b = true := by
    unfold BitVec.saddOverflow
    simp only [Bool.or_eq_true, decide_eq_true_eq]
    unfold Fit at h
    omega
  exact ⟨if_neg this, BitVec.toInt_add_of_not_saddOverflow this⟩

theorem csub_some {a b : BitVec w} (h : Fit w (a.toInt - b.toInt)) :
    csub a b = some (a - b) ∧ (a - b).toInt = a.toInt - b.toInt := by
  have : ¬ a.ssubOverflow b = true := by
    unfold BitVec.ssubOverflow
    simp only [Bool.or_eq_true, decide_eq_true_eq]
    unfold Fit at h
    omega
  exact ⟨if_neg this, BitVec.toInt_sub_of_not_ssubOverflow this⟩

theorem cmul_some {a b : BitVec w} (h : Fit w (a.toInt * b.toInt)) :
    cmul a b = some (a * b) ∧ (a * b).toInt = a.toInt * b.toInt := by
  have : ¬ a.smulOverflow b = true := by
    unfold BitVec.smulOverflow
    simp only [Bool.or_eq_true, decide_eq_true_eq]
    unfold Fit at h
    omega
  exact ⟨if_neg this, BitVec.toInt_mul_of_not_smulOverflow this⟩

theorem cadd_inv {a b c : BitVec w} (h : cadd a b = some c) : c.toInt = a.toInt + b.toInt := by
  unfold cadd at h
  split at h
  · simp at h
  · rename_i hn
    simp only [Option.some.injEq] at h
    rw [← h]; exact BitVec.toInt_add_of_not_saddOverflow hn

theorem csub_inv {a b c : BitVec w} (h : csub a b = some c) : c.toInt = a.toInt - b.toInt := by
  unfold csub at h
  split at h
  · simp at h
  · rename_i hn
    simp only [Option.some.injEq] at h
    rw [← h]; exact BitVec.toInt_sub_of_not_ssubOverflow hn

theorem cmul_inv {a b c : BitVec w} (h : cmul a b = some c) : c.toInt = a.toInt * b.toInt := by
  unfold cmul at h
  split at h
  · simp at h
  · rename_i hn
    simp only [Option.some.injEq] at h
    rw [← h]; exact BitVec.toInt_mul_of_not_smulOverflow hn

theorem signMask_eq (hw : 0 < w) (x : BitVec w) :
    signMask x = if x.toInt < 0 then BitVec.allOnes w else 0#w := by
  apply BitVec.eq_of_toInt_eq
  unfold signMask
  rw [BitVec.toInt_sshiftRight, Int.shiftRight_eq_div_pow]
  have h := fit_toInt x
  unfold Fit at h
  have hp : (0 : Int) < 2 ^ (w - 1) := by positivity
  have hc : ((2 ^ (w - 1) : Nat) : Int) = 2 ^ (w - 1) := by push_cast; rfl
  rw [hc]
  split
  · rw [BitVec.toInt_allOnes, if_pos hw]
    rw [Int.ediv_eq_iff_of_pos hp]
    constructor <;> linarith
  · rw [Int.ediv_eq_zero_of_lt (by omega) h.2]
    simp


theorem tdivmod (a b : Int) (hb : b ≠ 0) :
    a = b * a.tdiv b + a.tmod b ∧ (0 ≤ a → 0 ≤ a.tmod b) ∧ (a ≤ 0 → a.tmod b ≤ 0) ∧
      -|b| < a.tmod b ∧ a.tmod b < |b| := by
  refine ⟨(Int.mul_tdiv_add_tmod a b).symm, fun h => Int.tmod_nonneg _ h, ?_, ?_⟩
  · intro h
    have := Int.tmod_nonneg b (a := -a) (by omega)
    rw [Int.neg_tmod] at this
    omega
  have h : (a.tmod b).natAbs < b.natAbs := by
    rw [Int.natAbs_tmod]; exact Nat.mod_lt _ (by omega)
  rw [Int.abs_eq_natAbs]
  omega

theorem toInt_eq_zero {b : BitVec w} : b.toInt = 0 ↔ b = 0#w := by
  constructor
  · intro h; apply BitVec.eq_of_toInt_eq; rw [h]; simp
  · rintro rfl; simp

/-- C++ division, when defined. -/
theorem cdiv_some {a b : BitVec w} (h : ¬ (b = 0#w ∨ (a = BitVec.intMin w ∧ b = -1#w))) :
    cdiv a b = some (a.sdiv b) ∧ (a.sdiv b).toInt = a.toInt.tdiv b.toInt := by
  refine ⟨if_neg h, BitVec.toInt_sdiv_of_ne_or_ne _ _ ?_⟩
  tauto

theorem crem_some {a b : BitVec w} (h : ¬ (b = 0#w ∨ (a = BitVec.intMin w ∧ b = -1#w))) :
    crem a b = some (a.srem b) ∧ (a.srem b).toInt = a.toInt.tmod b.toInt :=
  ⟨if_neg h, BitVec.toInt_srem _ _⟩

theorem fit_mul_tdiv {a b : Int} (ha : Fit w a) (hb : b ≠ 0) : Fit w (a.tdiv b * b) := by
  obtain ⟨h1, h2, h3, _, _⟩ := tdivmod a b hb
  have hp : (0 : Int) < 2 ^ (w - 1) := by positivity
  have hc : a.tdiv b * b = b * a.tdiv b := mul_comm _ _
  have h5 : a.natAbs = (b * a.tdiv b).natAbs + (a.tmod b).natAbs := by
    have := Nat.div_add_mod a.natAbs b.natAbs
    rw [Int.natAbs_tmod, Int.natAbs_mul, Int.natAbs_tdiv]
    exact this.symm
  unfold Fit at *
  rcases le_total 0 a with h | h
  · have := h2 h
    omega
  · have := h3 h
    omega

theorem toInt_and_allOnes (x : BitVec w) : (BitVec.allOnes w &&& x) = x := by simp

theorem toInt_neg_one (hw : 0 < w) : (BitVec.allOnes w).toInt = -1 := by
  rw [BitVec.toInt_allOnes, if_pos hw]

theorem toInt_intMin (hw : 0 < w) : (BitVec.intMin w).toInt = -2 ^ (w - 1) := by
  rw [BitVec.toInt_intMin_of_pos hw]

theorem cabs_some {b : BitVec w} (h : b ≠ BitVec.intMin w) :
    ∃ c, cabs b = some c ∧ c.toInt = |b.toInt| := by
  refine ⟨_, if_neg h, ?_⟩
  split
  · rename_i hs
    rw [BitVec.slt_iff_toInt_lt] at hs
    simp only [BitVec.toInt_zero] at hs
    rw [abs_of_neg hs, BitVec.toInt_neg_of_ne_intMin h]
  · rename_i hs
    rw [BitVec.slt_iff_toInt_lt] at hs
    simp only [BitVec.toInt_zero] at hs
    rw [abs_of_nonneg (by omega)]

/-- Euclidean quotients are unique. -/
theorem ediv_unique' {a b q : Int} (h0 : 0 ≤ a - q * b) (h1 : a - q * b < |b|) (hb : b ≠ 0) : q = a / b := by
  have h2 : a % b + b * (a / b) = a := Int.emod_add_mul_ediv a b
  have h3 := Int.emod_nonneg a hb
  have h4 := Int.emod_lt_abs a hb
  have h5 : (a / b - q) * b = (a - q * b) - a % b := by linarith
  have h6 : |(a / b - q) * b| < |b| := by
    rw [h5, abs_lt]; constructor <;> linarith
  rw [abs_mul] at h6
  have h7 : |a / b - q| < 1 := by
    by_contra hc
    have : 1 * |b| ≤ |a / b - q| * |b| := mul_le_mul_of_nonneg_right (by omega) (abs_nonneg _)
    omega
  have h8 := Int.abs_lt_one_iff.1 h7
  omega

end Nda
