import Verif.Spec.RoundingResample
import Verif.Lemmas.RoundingBinary
import Verif.Lemmas.Rounding
import Mathlib.Tactic.FieldSimp
import Mathlib.Algebra.BigOperators.Field
/-
Lemmas on the rounding errors of resampling (C84).
-/
namespace Nda
open Spec
variable {F α : Type} {o : FloatOps F} {Finite : F → Prop} {val : F → ℚ} {u η Ω : ℚ}

/-- The sums and products of the arithmetic. -/
def scalarOf (o : FloatOps F) (val : F → ℚ) : ScalarOps F := ⟨o.zero, o.add, o.mul, fun a b => decide (val a < val b)⟩

theorem Spec.RoundsFloat.rounds (R : RoundsFloat o Finite val u η Ω) : Rounds (scalarOf o val) Finite val u η Ω where
  unit := R.unit
  underflow := R.underflow
  zero := R.zero
  add := R.add
  mul := R.mul
  lt _ _ _ _ := decide_eq_true_iff

/-- Weighted sums of values with errors, by weights with errors. -/
theorem Spec.RoundsFloat.stage (R : RoundsFloat o Finite val u η Ω) (x k : α → F) (X a : α → ℚ) (l : List α) {n : Nat}
    {Z Y ρ cond : ℚ} (hn : l.length ≤ n) (hZ : 0 ≤ Z) (hρ : 0 ≤ ρ)
    (hx : ∀ i ∈ l, Finite (x i) ∧ |X i| ≤ Z ∧ |val (x i) - X i| ≤ Y - Z)
    (hY : Z ≤ Y)
    (hk : ∀ i ∈ l, Finite (k i) ∧ |val (k i) - a i| ≤ ρ * |a i| + η)
    (hc : (l.map fun i => |a i|).sum = cond)
    (hΩ : (1 + u) ^ n * ((1 + u) * Y * ((1 + ρ) * cond + n * η) + n * η) ≤ Ω) :
    Finite (l.foldl (fun s i => o.add s (o.mul (x i) (k i))) o.zero) ∧
    |val (l.foldl (fun s i => o.add s (o.mul (x i) (k i))) o.zero) - (l.map fun i => X i * a i).sum| ≤
      (1 + u) ^ n * ((1 + u) * Y * ((1 + ρ) * cond + n * η) + n * η) - Z * cond := by
  have hu := R.unit
  have hη := R.underflow
  have hY0 : 0 ≤ Y := hZ.trans hY
  have hc0 : 0 ≤ cond := by rw [← hc]; exact sum_map_nonneg_abs l a
  have hsum : (l.map fun i => Z * |a i| + ((1 + u) * Y * ((1 + ρ) * |a i| + η) + η - Z * |a i|)).sum =
      (1 + u) * Y * ((1 + ρ) * cond + l.length * η) + l.length * η := by
    rw [← hc]
    clear hc hx hk hΩ hn
    induction l with
    | nil => simp
    | cons b l ih =>
      simp only [List.map_cons, List.sum_cons, List.length_cons, ih]
      push_cast
      ring
  have hsumz : (l.map fun i => Z * |a i|).sum = Z * cond := by
    rw [← hc, List.sum_map_mul_left]
  have hlen : (l.length : ℚ) ≤ n := by exact_mod_cast hn
  have hpow : (1 + u) ^ l.length ≤ (1 + u) ^ n := pow_le_pow_right₀ (by linarith) hn
  have hpow1 : (1 : ℚ) ≤ (1 + u) ^ n := one_le_pow₀ (by linarith)
  have hin : (1 + u) * Y * ((1 + ρ) * cond + l.length * η) + l.length * η ≤
      (1 + u) * Y * ((1 + ρ) * cond + n * η) + n * η := by
    have h1 : (l.length : ℚ) * η ≤ n * η := mul_le_mul_of_nonneg_right hlen hη
    have h2 : (1 + u) * Y * ((1 + ρ) * cond + l.length * η) ≤ (1 + u) * Y * ((1 + ρ) * cond + n * η) :=
      mul_le_mul_of_nonneg_left (by linarith) (by positivity)
    linarith
  have hin0 : 0 ≤ (1 + u) * Y * ((1 + ρ) * cond + n * η) + n * η := by positivity
  have htot : (1 + u) ^ l.length * ((1 + u) * Y * ((1 + ρ) * cond + l.length * η) + l.length * η) ≤
      (1 + u) ^ n * ((1 + u) * Y * ((1 + ρ) * cond + n * η) + n * η) :=
    mul_le_mul hpow hin (by positivity) (by positivity)
  have key := R.rounds.sum (fun i => o.mul (x i) (k i)) (fun i => X i * a i) (fun i => Z * |a i|)
    (fun i => (1 + u) * Y * ((1 + ρ) * |a i| + η) + η - Z * |a i|) l o.zero 0 0 0 R.zero.1
    (by rw [R.zero.2]; simp) (by simp) (fun i hi => by
      obtain ⟨fx, zx, ex⟩ := hx i hi
      obtain ⟨fk, ek⟩ := hk i hi
      have hvx : |val (x i)| ≤ Y := by
        have := abs_sub_abs_le_abs_sub (val (x i)) (X i)
        linarith
      have hvk : |val (k i)| ≤ (1 + ρ) * |a i| + η := by
        have := abs_sub_abs_le_abs_sub (val (k i)) (a i)
        linarith
      have hp : |val (x i) * val (k i)| ≤ Y * ((1 + ρ) * |a i| + η) := by
        rw [abs_mul]
        exact mul_le_mul hvx hvk (abs_nonneg _) hY0
      have hai : |a i| ≤ cond := by
        rw [← hc]
        exact List.single_le_sum (by
          intro y hy
          obtain ⟨j, -, rfl⟩ := List.mem_map.1 hy
          exact abs_nonneg _) _ (List.mem_map_of_mem hi)
      have hn1 : (1 : ℚ) ≤ n := by
        have : 0 < l.length := List.length_pos_of_mem hi
        have : 1 ≤ n := by omega
        exact_mod_cast this
      have hpΩ : Y * ((1 + ρ) * |a i| + η) ≤ Ω := by
        refine le_trans ?_ hΩ
        have h1 : (1 + ρ) * |a i| + η ≤ (1 + ρ) * cond + n * η := by
          have e1 : (1 + ρ) * |a i| ≤ (1 + ρ) * cond := mul_le_mul_of_nonneg_left hai (by linarith)
          have e2 : 1 * η ≤ n * η := mul_le_mul_of_nonneg_right hn1 hη
          linarith
        have h2 : Y * ((1 + ρ) * |a i| + η) ≤ Y * ((1 + ρ) * cond + n * η) := mul_le_mul_of_nonneg_left h1 hY0
        have h3 : 0 ≤ Y * ((1 + ρ) * cond + n * η) := by positivity
        have h4 : Y * ((1 + ρ) * cond + n * η) ≤ (1 + u) * Y * ((1 + ρ) * cond + n * η) + n * η := by
          have : 0 ≤ u * (Y * ((1 + ρ) * cond + n * η)) := mul_nonneg hu h3
          have : 0 ≤ (n : ℚ) * η := by positivity
          linarith
        have h5 : 1 * ((1 + u) * Y * ((1 + ρ) * cond + n * η) + n * η) ≤
            (1 + u) ^ n * ((1 + u) * Y * ((1 + ρ) * cond + n * η) + n * η) :=
          mul_le_mul_of_nonneg_right hpow1 hin0
        linarith
      obtain ⟨fm, em⟩ := R.mul (x i) (k i) fx fk (hp.trans hpΩ)
      refine ⟨fm, ?_, by rw [abs_mul]; exact mul_le_mul_of_nonneg_right zx (abs_nonneg _)⟩
      have e1 : val (o.mul (x i) (k i)) - X i * a i = (val (o.mul (x i) (k i)) - val (x i) * val (k i)) +
          (val (x i) * (val (k i) - a i) + (val (x i) - X i) * a i) := by ring
      rw [e1]
      have h1 := abs_add_le (val (o.mul (x i) (k i)) - val (x i) * val (k i))
        (val (x i) * (val (k i) - a i) + (val (x i) - X i) * a i)
      have h2 := abs_add_le (val (x i) * (val (k i) - a i)) ((val (x i) - X i) * a i)
      have h3 : |val (x i) * (val (k i) - a i)| ≤ Y * (ρ * |a i| + η) := by
        rw [abs_mul]
        exact mul_le_mul hvx ek (abs_nonneg _) hY0
      have h4 : |(val (x i) - X i) * a i| ≤ (Y - Z) * |a i| := by
        rw [abs_mul]
        exact mul_le_mul_of_nonneg_right ex (abs_nonneg _)
      have h5 := mul_le_mul_of_nonneg_left hp hu
      nlinarith)
    (by
      rw [hsum, zero_add, zero_add]
      exact htot.trans hΩ)
  rw [hsum, hsumz, zero_add, zero_add, zero_add] at key
  exact ⟨key.1, key.2.trans (by linarith)⟩

/-- The sum of the values of a kernel. -/
theorem Spec.GoodWeights.sumOk (R : RoundsFloat o Finite val u η Ω) {n : Nat} {v : Interval} {w : Int → F}
    (G : GoodWeights Finite val u Ω n v w) {s : F} (hs : AscendingSum o v w s) :
    Finite s ∧ |val s - weightSum val v w| ≤ sumError u n (condition val v w) * |weightSum val v w| := by
  obtain ⟨l, hp, hl, rfl⟩ := hs
  have hu := R.unit
  have hnd : l.Nodup := hp.imp fun h => ne_of_lt h
  have hmem : ∀ i, i ∈ l ↔ InInterval v i ∧ val (w i) ≠ 0 := by
    intro i
    rw [hl i]
    exact ⟨fun h => ⟨h.1, (R.nonZero _ (G.finite i h.1)).1 h.2⟩, fun h => ⟨h.1, (R.nonZero _ (G.finite i h.1)).2 h.2⟩⟩
  have hsub : l.toFinset ⊆ spanOf v := fun i hi => Finset.mem_Ico.2 ((hmem i).1 (List.mem_toFinset.1 hi)).1
  have hzero : ∀ i ∈ spanOf v, i ∉ l.toFinset → val (w i) = 0 := by
    intro i hi hn
    by_contra h
    exact hn (List.mem_toFinset.2 ((hmem i).2 ⟨Finset.mem_Ico.1 hi, h⟩))
  have e1 : (l.map fun i => val (w i)).sum = weightSum val v w := by
    rw [← List.sum_toFinset _ hnd]
    exact Finset.sum_subset hsub hzero
  have e2 : (l.map fun i => |val (w i)|).sum = ∑ i ∈ spanOf v, |val (w i)| := by
    rw [← List.sum_toFinset _ hnd]
    exact Finset.sum_subset hsub fun i hi hn => by rw [hzero i hi hn, abs_zero]
  have hlen : l.length ≤ n := by
    cases l with
    | nil => simp
    | cons a l =>
      have hall : ∀ i ∈ a :: l, i ∈ Finset.Ico a (a + n) := by
        intro i hi
        have h1 := (hmem i).1 hi
        have h2 := (hmem a).1 (by simp)
        rw [Finset.mem_Ico]
        refine ⟨?_, by have := G.support a i h2.1 h1.1 h2.2 h1.2; omega⟩
        rcases List.mem_cons.1 hi with rfl | hi
        · exact le_rfl
        · exact (List.rel_of_pairwise_cons hp hi).le
      have := List.toFinset_card_of_nodup hnd
      have h3 := Finset.card_le_card (fun i hi => hall i (List.mem_toFinset.1 hi) : (a :: l).toFinset ⊆ Finset.Ico a (a + n))
      rw [this, Int.card_Ico] at h3
      omega
  have hpow : (1 + u) ^ l.length ≤ (1 + u) ^ n := pow_le_pow_right₀ (by linarith) hlen
  have hW0 : 0 ≤ ∑ i ∈ spanOf v, |val (w i)| := Finset.sum_nonneg fun i _ => abs_nonneg _
  have key := R.rounds.sum w (fun i => val (w i)) (fun i => |val (w i)|) (fun _ => 0) l o.zero 0 0 0 R.zero.1
    (by rw [R.zero.2]; simp) (by simp) (fun i hi => ⟨G.finite i ((hmem i).1 hi).1, by simp, le_rfl⟩)
    (by
      simp only [add_zero, zero_add]
      rw [e2]
      exact (mul_le_mul_of_nonneg_right hpow hW0).trans G.size)
  simp only [add_zero, zero_add] at key
  rw [e1, e2] at key
  refine ⟨key.1, key.2.trans ?_⟩
  have hS : 0 < |weightSum val v w| := abs_pos.2 G.sum
  unfold sumError condition
  rw [mul_assoc, div_mul_cancel₀ _ hS.ne']
  have := mul_le_mul_of_nonneg_right hpow hW0
  linarith

theorem Spec.GoodWeights.condition_nonneg (v : Interval) (w : Int → F) : 0 ≤ condition val v w :=
  div_nonneg (Finset.sum_nonneg fun i _ => abs_nonneg _) (abs_nonneg _)

theorem sumError_nonneg (hu : 0 ≤ u) (n : Nat) {cond : ℚ} (hc : 0 ≤ cond) : 0 ≤ sumError u n cond :=
  mul_nonneg (by have : (1 : ℚ) ≤ (1 + u) ^ n := one_le_pow₀ (by linarith); linarith) hc

theorem tapError_nonneg (hu : 0 ≤ u) {n : Nat} {cond : ℚ} (hc : 0 ≤ cond) (h : sumError u n cond < 1) :
    0 ≤ tapError u n cond :=
  div_nonneg (add_nonneg hu (sumError_nonneg hu n hc)) (by linarith)

/-- The values of a kernel, divided by their sum. -/
theorem Spec.GoodWeights.tap (R : RoundsFloat o Finite val u η Ω) {n : Nat} {v : Interval} {w : Int → F}
    (G : GoodWeights Finite val u Ω n v w) {s : F} (hs : AscendingSum o v w s) {i : Int} (hi : InInterval v i) :
    Finite (o.div (w i) s) ∧ |val (o.div (w i) s) - val (w i) / weightSum val v w| ≤
      tapError u n (condition val v w) * |val (w i) / weightSum val v w| + η := by
  obtain ⟨hf, he⟩ := G.sumOk R hs
  have hu := R.unit
  have hc := Spec.GoodWeights.condition_nonneg (val := val) v w
  have hd0 := sumError_nonneg hu n hc
  have hd1 := G.small
  have hq := G.quotient
  set S := weightSum val v w with hS
  set d := sumError u n (condition val v w) with hd
  have hSpos : 0 < |S| := abs_pos.2 G.sum
  have h1d : 0 < 1 - d := by linarith
  have hs1 : |S| * (1 - d) ≤ |val s| := by
    have := abs_sub_abs_le_abs_sub S (val s)
    rw [abs_sub_comm] at this
    linarith
  have hspos : 0 < |val s| := lt_of_lt_of_le (mul_pos hSpos h1d) hs1
  have hs0 : val s ≠ 0 := abs_pos.1 hspos
  have hquot : |val (w i) / val s| ≤ |val (w i) / S| / (1 - d) := by
    rw [abs_div, abs_div, div_div]
    exact div_le_div_of_nonneg_left (abs_nonneg _) (mul_pos hSpos h1d) hs1
  have hcond : |val (w i) / S| ≤ condition val v w := by
    unfold condition
    rw [abs_div, ← hS]
    refine div_le_div_of_nonneg_right ?_ hSpos.le
    exact Finset.single_le_sum (f := fun i => |val (w i)|) (fun i _ => abs_nonneg _) (Finset.mem_Ico.2 hi)
  obtain ⟨fd, ed⟩ := R.div (w i) s (G.finite i hi) hf hs0
    (hquot.trans ((div_le_div_of_nonneg_right hcond h1d.le).trans hq))
  refine ⟨fd, ?_⟩
  have e1 : val (o.div (w i) s) - val (w i) / S = (val (o.div (w i) s) - val (w i) / val s) +
      (val (w i) / S) * ((S - val s) / val s) := by
    have hS0 : S ≠ 0 := G.sum
    have e0 : val (w i) / S * ((S - val s) / val s) = val (w i) / val s - val (w i) / S := by
      rw [div_mul_div_comm, div_sub_div _ _ hs0 hS0, mul_comm S]
      ring
    rw [e0]
    ring
  rw [e1]
  have h1 := abs_add_le (val (o.div (w i) s) - val (w i) / val s) ((val (w i) / S) * ((S - val s) / val s))
  have h2 : |(S - val s) / val s| ≤ d / (1 - d) := by
    rw [abs_div, abs_sub_comm, div_le_div_iff₀ hspos h1d]
    calc |val s - S| * (1 - d) ≤ d * |S| * (1 - d) := mul_le_mul_of_nonneg_right he h1d.le
      _ = d * (|S| * (1 - d)) := by ring
      _ ≤ d * |val s| := mul_le_mul_of_nonneg_left hs1 hd0
  have h3 : |(val (w i) / S) * ((S - val s) / val s)| ≤ |val (w i) / S| * (d / (1 - d)) := by
    rw [abs_mul]
    exact mul_le_mul_of_nonneg_left h2 (abs_nonneg _)
  have h4 := mul_le_mul_of_nonneg_left hquot hu
  have e2 : tapError u n (condition val v w) * |val (w i) / S| = u * (|val (w i) / S| / (1 - d)) +
      |val (w i) / S| * (d / (1 - d)) := by
    unfold tapError
    rw [← hd]
    ring
  rw [e2]
  linarith

/-- Binary formats. -/
theorem binaryFloatOps_rounds {rnd : ℚ → Int} {p : Nat} {emin : Int} (h : ToNearest rnd) {N E : Int} (hN : 2 ^ p ≤ 2 * N)
    (hN' : N < 2 ^ p) (hE : emin ≤ E) (hΩ : Ω = N * (2 : ℚ) ^ E) (he : emin ≤ 0) (h1 : 1 ≤ Ω) :
    RoundsFloat (binaryFloatOps rnd p emin Ω) (IsBinary p emin Ω) (fun x => x.getD 0) ((2 : ℚ)⁻¹ ^ p)
      ((2 : ℚ) ^ (emin - 1)) Ω where
  unit := by positivity
  underflow := (two_zpow_pos _).le
  zero := (binaryOps_rounds h hN hN' hE hΩ).zero
  add := (binaryOps_rounds h hN hN' hE hΩ).add
  mul := (binaryOps_rounds h hN hN' hE hΩ).mul
  div a b ha hb hb0 hx := by
    obtain ⟨m, rfl⟩ := isBinary_multiple ha
    obtain ⟨n, rfl⟩ := isBinary_multiple hb
    obtain ⟨h1, h2⟩ := nearestBinary_isBinary h hN hN' hE hΩ hx
    have e0 : (binaryFloatOps rnd p emin Ω).div (some (m * (2 : ℚ) ^ emin)) (some (n * (2 : ℚ) ^ emin)) =
        finiteOr Ω (nearestBinary rnd p emin (m * (2 : ℚ) ^ emin / (n * (2 : ℚ) ^ emin))) := by
      show (if (n * (2 : ℚ) ^ emin) = 0 then none else _) = _
      rw [if_neg (show ¬ (n * (2 : ℚ) ^ emin = 0) from hb0)]
      rfl
    rw [e0]
    refine ⟨h1, ?_⟩
    simp only [Option.getD_some] at h2 ⊢
    rw [h2, Option.getD_some]
    have hη := (two_zpow_pos (emin - 1)).le
    rcases nearestBinary_error h (p := p) (emin := emin) (m * (2 : ℚ) ^ emin / (n * (2 : ℚ) ^ emin)) with he | ⟨-, he⟩
    · linarith
    · have : (0 : ℚ) ≤ (2 : ℚ)⁻¹ ^ p * |m * (2 : ℚ) ^ emin / (n * (2 : ℚ) ^ emin)| := by positivity
      linarith
  nonZero a ha := by
    obtain ⟨m, rfl⟩ := isBinary_multiple ha
    exact decide_eq_true_iff
  sub a b ha hb hx := by
    obtain ⟨m, rfl⟩ := isBinary_multiple ha
    obtain ⟨n, rfl⟩ := isBinary_multiple hb
    obtain ⟨h1, h2⟩ := nearestBinary_isBinary h hN hN' hE hΩ hx
    refine ⟨h1, ?_⟩
    show |(finiteOr Ω (nearestBinary rnd p emin (m * (2 : ℚ) ^ emin - n * (2 : ℚ) ^ emin))).getD 0 - _| ≤ _
    simp only [Option.getD_some] at h2 ⊢
    rw [h2, Option.getD_some]
    rcases nearestBinary_error h (p := p) (emin := emin) (m * (2 : ℚ) ^ emin - n * (2 : ℚ) ^ emin) with he | ⟨hq, -⟩
    · exact he
    · rw [nearestBinary_exact h (m - n) (by push_cast; ring) hq, sub_self, abs_zero]
      positivity
  ofIndex i hx := by
    obtain ⟨h1, h2⟩ := nearestBinary_isBinary h hN hN' hE hΩ hx
    refine ⟨h1, ?_⟩
    show |(finiteOr Ω (nearestBinary rnd p emin i)).getD 0 - _| ≤ _
    rw [h2, Option.getD_some]
    rcases nearestBinary_error h (p := p) (emin := emin) (i : ℚ) with he' | ⟨hq, -⟩
    · exact he'
    · obtain ⟨t, ht⟩ := Int.le.dest he
      rw [nearestBinary_exact h (i * 2 ^ t) (by
        push_cast
        rw [mul_assoc, ← zpow_natCast, ← zpow_add₀ (by norm_num), add_comm, ht, zpow_zero, mul_one]) hq, sub_self, abs_zero]
      positivity
  one := by
    refine ⟨⟨1, 0, he, ?_, ?_, ?_⟩, rfl⟩
    · rw [abs_one]
      exact one_le_pow₀ (by norm_num)
    · show some (1 : ℚ) = _
      norm_num
    · norm_num
      exact h1
  min a b ha hb := by
    obtain ⟨m, e1, k1, k2, rfl, k3⟩ := ha
    obtain ⟨n, e2, l1, l2, rfl, l3⟩ := hb
    show IsBinary p emin Ω (some (if _ < _ then _ else _)) ∧ (if _ < _ then _ else _) = Min.min _ _
    simp only [Option.getD_some]
    split
    · exact ⟨⟨n, e2, l1, l2, rfl, l3⟩, (min_eq_right (by linarith)).symm⟩
    · exact ⟨⟨m, e1, k1, k2, rfl, k3⟩, (min_eq_left (by linarith)).symm⟩

end Nda
