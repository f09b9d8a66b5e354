import Mathlib.Algebra.Order.Floor.Ring
import Mathlib.Algebra.Order.Floor.Semiring
import Mathlib.Algebra.Order.BigOperators.Group.Finset
import Mathlib.Algebra.BigOperators.Intervals
import Mathlib.Data.Int.Interval
import Mathlib.Tactic.Ring
import Mathlib.Tactic.Linarith
import Mathlib.Tactic.NormNum
/-
Sums of kernel values at equally spaced positions.
-/
namespace Nda

section
variable {K : Type} [Field K] [LinearOrder K] [IsStrictOrderedRing K]

/-- What is used of a kernel with one negative lobe on each side. -/
structure Lobes (k : K → K) (c : K) : Prop where
  even : ∀ s, k (-s) = k s
  centre : ∀ s, |s| ≤ 1 / 2 → 4 * c < k s
  main : ∀ s, |s| ≤ 1 → 0 ≤ k s
  below : ∀ s, -c ≤ k s
  far : ∀ s, 2 ≤ |s| → k s = 0
  pair : ∀ s u, 1 / 2 ≤ s → s ≤ 1 → 1 ≤ u → s + u ≤ 2 → 0 ≤ k s + k (s + u)
  nonneg : 0 ≤ c

/-- One side of the sum. -/
theorem Lobes.side [FloorRing K] {k : K → K} {c : K} (h : Lobes k c) {s0 t : K} (ht : 0 < t)
    (hs : |s0| ≤ t / 2) (N : ℕ) :
    -(2 * c) ≤ ∑ j ∈ Finset.range N, k (s0 + (j + 1) * t) := by
  obtain ⟨hs1, hs2⟩ := abs_le.1 hs
  -- `m t` is at least one, `(m - 1) t` is less than one
  obtain ⟨m, hm1, hm2⟩ : ∃ m : ℕ, 1 ≤ m * t ∧ m * t < 1 + t := by
    refine ⟨⌈1 / t⌉₊, ?_, ?_⟩
    · have := Nat.le_ceil (1 / t)
      rwa [div_le_iff₀ ht] at this
    · have := Nat.ceil_lt_add_one (show 0 ≤ 1 / t by positivity)
      have h2 := mul_lt_mul_of_pos_right this ht
      rw [add_mul, one_mul, div_mul_cancel₀ _ ht.ne'] at h2
      exact h2
  have hmpos : 1 ≤ m := by
    rcases Nat.eq_zero_or_pos m with h0 | h0
    · rw [h0] at hm1; norm_num at hm1
    · exact h0
  set x : ℕ → K := fun j => s0 + (j + 1) * t with hx
  have xpos : ∀ j, 0 ≤ x j := by
    intro j
    have : (0 : K) ≤ j * t := by positivity
    simp only [hx, add_mul, one_mul]
    linarith
  set f : ℕ → K := fun j => k (x j) with hf
  set p : ℕ → K := fun j => max (f j) 0 with hp
  set g : ℕ → K := fun j => min (f j) 0 with hg
  have hfg : ∀ j, f j = p j + g j := by intro j; simp only [hp, hg]; rw [max_add_min, add_zero]
  have gbound : ∀ j, -c ≤ g j := fun j => le_min (h.below _) (by linarith [h.nonneg])
  have gle : ∀ j, g j ≤ 0 := fun j => min_le_right _ _
  have pge : ∀ j, 0 ≤ p j := fun j => le_max_right _ _
  -- early terms are not negative
  have early : ∀ j, j + 2 < m → g j = 0 := by
    intro j hj
    refine min_eq_right (h.main _ ?_)
    rw [abs_of_nonneg (xpos j)]
    have h1 : ((j : K) + 3) ≤ m := by exact_mod_cast (show j + 3 ≤ m by omega)
    have h2 : ((j : K) + 3) * t ≤ m * t := mul_le_mul_of_nonneg_right h1 ht.le
    simp only [hx]
    linarith
  -- a negative term is compensated by the term `m` before
  have pairs : ∀ i, 0 ≤ p i + g (i + m) := by
    intro i
    rcases le_or_gt 0 (f (i + m)) with h0 | h0
    · have : g (i + m) = 0 := min_eq_right h0
      rw [this, add_zero]
      exact pge i
    · have hge : g (i + m) = f (i + m) := min_eq_left h0.le
      have e : x (i + m) = x i + m * t := by simp only [hx]; push_cast; ring
      have hlt : x (i + m) < 2 := by
        by_contra hn
        have := h.far (x (i + m)) (by rw [abs_of_nonneg (xpos _)]; exact not_lt.1 hn)
        exact absurd this h0.ne
      rw [hge]
      rcases le_or_gt (x i) (1 / 2) with h2 | h2
      · have a := h.centre (x i) (by rw [abs_of_nonneg (xpos _)]; exact h2)
        have b := h.below (x (i + m))
        have d : f i ≤ p i := le_max_left _ _
        have := h.nonneg
        simp only [hf] at d ⊢
        linarith
      · have a := h.pair (x i) (m * t) h2.le (by linarith) hm1 (by linarith)
        have d : f i ≤ p i := le_max_left _ _
        rw [← e] at a
        simp only [hf] at d ⊢
        linarith
  -- the two terms that remain
  have hG : ∀ N, -(2 * c) - ∑ i ∈ Finset.range (N - m), p i ≤ ∑ j ∈ Finset.range N, g j := by
    intro N
    have first : ∀ N ≤ m, -(2 * c) ≤ ∑ j ∈ Finset.range N, g j := by
      intro N hN
      have : ∀ N, N + 2 ≤ m → ∑ j ∈ Finset.range N, g j = 0 := by
        intro N hN
        refine Finset.sum_eq_zero fun j hj => early j ?_
        have := Finset.mem_range.1 hj
        omega
      have hc := h.nonneg
      rcases Nat.lt_or_ge (N + 1) m with h1 | h1
      · rw [this N (by omega)]; linarith
      · rcases Nat.lt_or_ge N m with h2 | h2
        · match N, h1, h2 with
          | 0, _, _ => simp; linarith
          | N + 1, h1, h2 =>
            rw [Finset.sum_range_succ, this N (by omega)]
            have := gbound N
            linarith
        · have hNm : N = m := by omega
          by_cases hm : m = 1
          · rw [hNm, hm, Finset.sum_range_one]; have := gbound 0; linarith
          · obtain ⟨M, hM⟩ : ∃ M, m = M + 2 := ⟨m - 2, by omega⟩
            rw [hNm, hM, Finset.sum_range_succ, Finset.sum_range_succ, this M hM.ge]
            have := gbound M
            have := gbound (M + 1)
            linarith
    rcases Nat.lt_or_ge N m with h1 | h1
    · rw [Nat.sub_eq_zero_of_le h1.le, Finset.sum_range_zero, sub_zero]
      exact first N h1.le
    · obtain ⟨d, rfl⟩ := Nat.exists_eq_add_of_le h1
      rw [Nat.add_sub_cancel_left, Finset.sum_range_add]
      have a := first m le_rfl
      have b : 0 ≤ ∑ i ∈ Finset.range d, (p i + g (m + i)) :=
        Finset.sum_nonneg fun i _ => by rw [Nat.add_comm m i]; exact pairs i
      rw [Finset.sum_add_distrib] at b
      linarith
  have hsum : ∑ j ∈ Finset.range N, f j = ∑ j ∈ Finset.range N, p j + ∑ j ∈ Finset.range N, g j := by
    rw [← Finset.sum_add_distrib]
    exact Finset.sum_congr rfl fun j _ => hfg j
  have hmono : ∑ i ∈ Finset.range (N - m), p i ≤ ∑ i ∈ Finset.range N, p i :=
    Finset.sum_le_sum_of_subset_of_nonneg (Finset.range_mono (Nat.sub_le _ _)) fun i _ _ => pge i
  have := hG N
  show -(2 * c) ≤ ∑ j ∈ Finset.range N, f j
  rw [hsum]
  linarith

omit [LinearOrder K] [IsStrictOrderedRing K] in
theorem sum_right (f : ℤ → K) (a b : ℤ) :
    ∑ n ∈ Finset.Ico (a + 1) b, f n = ∑ j ∈ Finset.range (b - a - 1).toNat, f (a + (j + 1)) := by
  refine Finset.sum_nbij' (fun n => (n - a - 1).toNat) (fun j => a + (j + 1)) ?_ ?_ ?_ ?_ ?_ <;>
    intro n hn <;> simp only [Finset.mem_Ico, Finset.mem_range] at * <;> try omega
  congr 1
  omega

omit [LinearOrder K] [IsStrictOrderedRing K] in
theorem sum_left (f : ℤ → K) (a b : ℤ) :
    ∑ n ∈ Finset.Ico a b, f n = ∑ j ∈ Finset.range (b - a).toNat, f (b - (j + 1)) := by
  refine Finset.sum_nbij' (fun n => (b - 1 - n).toNat) (fun j => b - (j + 1)) ?_ ?_ ?_ ?_ ?_ <;>
    intro n hn <;> simp only [Finset.mem_Ico, Finset.mem_range] at * <;> try omega
  congr 1
  omega

/-- How small the sum of the values at consecutive samples can be, if one of them is within half a sample of the
centre, however much the kernel is stretched. -/
theorem Lobes.sum_ge [FloorRing K] {k : K → K} {c : K} (h : Lobes k c) {t p : K} (ht : 0 < t)
    {a b i0 : ℤ} (ha : a ≤ i0) (hb : i0 < b) (hp : |(i0 : K) - p| ≤ 1 / 2) :
    k (((i0 : K) - p) * t) - 4 * c ≤ ∑ n ∈ Finset.Ico a b, k (((n : K) - p) * t) := by
  have hs : |((i0 : K) - p) * t| ≤ t / 2 := by
    rw [abs_mul, abs_of_pos ht]
    nlinarith
  have hs' : |-(((i0 : K) - p) * t)| ≤ t / 2 := by rwa [abs_neg]
  have hsplit : Finset.Ico a b = Finset.Ico a i0 ∪ insert i0 (Finset.Ico (i0 + 1) b) := by
    ext n; simp only [Finset.mem_Ico, Finset.mem_union, Finset.mem_insert]; omega
  rw [hsplit, Finset.sum_union (by
      rw [Finset.disjoint_left]; intro n; simp only [Finset.mem_Ico, Finset.mem_insert]; omega),
    Finset.sum_insert (by simp), sum_right, sum_left]
  have r := h.side ht hs (b - i0 - 1).toNat
  have l := h.side ht hs' (i0 - a).toNat
  have e1 : ∑ j ∈ Finset.range (b - i0 - 1).toNat, k ((((i0 + (j + 1) : ℤ) : K) - p) * t) =
      ∑ j ∈ Finset.range (b - i0 - 1).toNat, k (((i0 : K) - p) * t + (j + 1) * t) := by
    refine Finset.sum_congr rfl fun j _ => ?_
    congr 1
    push_cast
    ring
  have e2 : ∑ j ∈ Finset.range (i0 - a).toNat, k ((((i0 - (j + 1) : ℤ) : K) - p) * t) =
      ∑ j ∈ Finset.range (i0 - a).toNat, k (-(((i0 : K) - p) * t) + (j + 1) * t) := by
    refine Finset.sum_congr rfl fun j _ => ?_
    rw [← h.even]
    congr 1
    push_cast
    ring
  rw [e1, e2]
  linarith

/-- The sum of the values at consecutive samples, one of which is within half a sample of the centre, is
positive, however much the kernel is stretched. -/
theorem Lobes.sum_pos [FloorRing K] {k : K → K} {c : K} (h : Lobes k c) {t p : K} (ht : 0 < t) (ht1 : t ≤ 1)
    {a b i0 : ℤ} (ha : a ≤ i0) (hb : i0 < b) (hp : |(i0 : K) - p| ≤ 1 / 2) :
    0 < ∑ n ∈ Finset.Ico a b, k (((n : K) - p) * t) := by
  have m := h.centre (((i0 : K) - p) * t) (by
    rw [abs_mul, abs_of_pos ht]
    nlinarith [abs_nonneg ((i0 : K) - p)])
  have := h.sum_ge ht ha hb hp
  linarith

end
end Nda
