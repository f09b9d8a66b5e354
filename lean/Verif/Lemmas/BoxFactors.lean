import Verif.Spec.BoxFactors
import Verif.Props.BoxFloat
import Verif.Props.ResampleSymmetry
/-
The box kernel with whole factors.
-/
namespace Nda
open Spec Kernel

theorem block_facts {n newN : Int} (hn : 1 ≤ n) (hN : 1 ≤ newN) (hd : newN ∣ n ∨ n ∣ newN) :
    ∃ q, factorOf n newN = q ∧ 1 ≤ q ∧
      ((n = newN * q ∧ blockLength n newN = q ∧ (∀ x, blockFirst n newN x = q * x)) ∨
        (newN = n * q ∧ blockLength n newN = 1 ∧ ∀ x, blockFirst n newN x = x / q)) := by
  by_cases hle : newN ≤ n
  · have hdv : newN ∣ n := by
      rcases hd with h | h
      · exact h
      · obtain rfl : n = newN := le_antisymm (Int.le_of_dvd (by omega) h) hle
        exact dvd_rfl
    obtain ⟨q, rfl⟩ := hdv
    have hq : 1 ≤ q := by
      by_contra hq
      have : newN * q ≤ 0 := mul_nonpos_of_nonneg_of_nonpos (by omega) (by omega)
      omega
    have e : newN * q / newN = q := Int.mul_ediv_cancel_left _ (by omega)
    refine ⟨q, ?_, hq, .inl ⟨rfl, ?_, fun x => ?_⟩⟩
    · unfold factorOf
      rw [e, max_eq_left]
      refine le_trans ?_ hq
      refine Int.le_of_lt_add_one (Int.ediv_lt_of_lt_mul (by omega) ?_)
      omega
    · unfold blockLength
      rw [if_pos hle, e]
    · unfold blockFirst
      rw [if_pos hle, e]
  · have hdv : n ∣ newN := by
      rcases hd with h | h
      · exact absurd (Int.le_of_dvd (by omega) h) hle
      · exact h
    obtain ⟨q, rfl⟩ := hdv
    have hq : 1 ≤ q := by
      by_contra hq
      have : n * q ≤ 0 := mul_nonpos_of_nonneg_of_nonpos (by omega) (by omega)
      omega
    have e : n * q / n = q := Int.mul_ediv_cancel_left _ (by omega)
    refine ⟨q, ?_, hq, .inr ⟨rfl, ?_, fun x => ?_⟩⟩
    · unfold factorOf
      rw [e, max_eq_right, ]
      rw [Int.ediv_eq_zero_of_lt (by omega) (by omega)]
      omega
    · unfold blockLength
      rw [if_neg hle]
    · unfold blockFirst
      rw [if_neg hle, e]

/-- The blocks are inside. -/
theorem block_range {n newN x : Int} (hn : 1 ≤ n) (hN : 1 ≤ newN) (hd : newN ∣ n ∨ n ∣ newN) (h0 : 0 ≤ x) (h1 : x < newN) :
    0 ≤ blockFirst n newN x ∧ 1 ≤ blockLength n newN ∧ blockFirst n newN x + blockLength n newN ≤ n := by
  obtain ⟨q, -, hq, ⟨e, el, ef⟩ | ⟨e, el, ef⟩⟩ := block_facts hn hN hd
  · rw [el, ef]
    refine ⟨mul_nonneg (by omega) h0, hq, ?_⟩
    have : q * (x + 1) ≤ q * newN := mul_le_mul_of_nonneg_left (by omega) (by omega)
    rw [e]
    linarith
  · rw [el, ef]
    refine ⟨Int.ediv_nonneg h0 (by omega), le_rfl, ?_⟩
    have : x / q < n := Int.ediv_lt_of_lt_mul (by omega) (by omega)
    omega

/-- The distance of a pixel from the position of a new pixel. -/
theorem block_distance {n newN : Int} (hn : 1 ≤ n) (hN : 1 ≤ newN) (hd : newN ∣ n ∨ n ∣ newN) (x i : Int) :
    ∃ t : Int, (i - samplePosition n newN x) * min ((newN : ℚ) / n) 1 = t / (2 * factorOf n newN) ∧
      (i ∈ blockOf n newN x → |t| ≤ factorOf n newN - 1) ∧ (i ∉ blockOf n newN x → factorOf n newN + 1 ≤ |t|) := by
  unfold blockOf
  rw [Finset.mem_Ico]
  obtain ⟨q, eq, hq, ⟨e, el, ef⟩ | ⟨e, el, ef⟩⟩ := block_facts hn hN hd
  · have hq' : (1 : ℚ) ≤ q := by exact_mod_cast hq
    have hN' : (1 : ℚ) ≤ newN := by exact_mod_cast hN
    have en : (n : ℚ) = newN * q := by exact_mod_cast e
    rw [el, ef, eq]
    refine ⟨2 * (i - q * x) + 1 - q, ?_, fun h => ?_, fun h => ?_⟩
    · have em : min ((newN : ℚ) / n) 1 = 1 / q := by
        rw [en, min_eq_left (by rw [div_le_one (by positivity)]; nlinarith)]
        field_simp
      rw [em]
      unfold samplePosition
      rw [en]
      push_cast
      field_simp
      ring
    · rw [abs_le]; omega
    · rw [le_abs]; omega
  · have hq' : (1 : ℚ) ≤ q := by exact_mod_cast hq
    have hn' : (1 : ℚ) ≤ n := by exact_mod_cast hn
    have eN : (newN : ℚ) = n * q := by exact_mod_cast e
    rw [el, ef, eq]
    have hx := Int.mul_ediv_add_emod x q
    have r0 := Int.emod_nonneg x (by omega : q ≠ 0)
    have r1 := Int.emod_lt_of_pos x (by omega : 0 < q)
    refine ⟨2 * q * i + q - 2 * x - 1, ?_, fun h => ?_, fun h => ?_⟩
    · have em : min ((newN : ℚ) / n) 1 = 1 := by
        rw [eN, min_eq_right (by rw [one_le_div (by positivity)]; nlinarith)]
      rw [em]
      unfold samplePosition
      rw [eN]
      push_cast
      field_simp
      ring
    · obtain rfl : i = x / q := by omega
      have : 2 * q * (x / q) = 2 * (q * (x / q)) := by ring
      rw [this, abs_le]
      omega
    · rcases (by omega : i + 1 ≤ x / q ∨ x / q + 1 ≤ i) with h | h
      · have := mul_le_mul_of_nonneg_left h (by omega : 0 ≤ q)
        have : 2 * q * i = 2 * (q * i) := by ring
        rw [this, le_abs]
        rw [mul_add] at *
        omega
      · have := mul_le_mul_of_nonneg_left h (by omega : 0 ≤ q)
        have : 2 * q * i = 2 * (q * i) := by ring
        rw [this, le_abs]
        rw [mul_add] at *
        omega

/-- In exact arithmetic. -/
theorem block_weight {n newN : Int} (hn : 1 ≤ n) (hN : 1 ≤ newN) (hd : newN ∣ n ∨ n ∣ newN) (x i : Int) :
    sampleWeight box n newN x i = if i ∈ blockOf n newN x then 1 else 0 := by
  obtain ⟨t, e, h1, h2⟩ := block_distance hn hN hd x i
  obtain ⟨q, eq, hq, -⟩ := block_facts hn hN hd
  rw [eq] at e h1 h2
  have hq' : (1 : ℚ) ≤ q := by exact_mod_cast hq
  unfold sampleWeight box
  rw [e]
  refine if_congr ?_ rfl rfl
  rw [abs_div, abs_of_pos (by linarith : (0 : ℚ) < 2 * q), div_le_div_iff₀ (by linarith) (by norm_num)]
  constructor
  · intro h
    by_contra hc
    have : (q : ℚ) + 1 ≤ |(t : ℚ)| := by exact_mod_cast h2 hc
    linarith
  · intro h
    have : |(t : ℚ)| ≤ (q : ℚ) - 1 := by exact_mod_cast h1 h
    linarith

/-- In binary32. -/
theorem block_samples {n newN x : Int} (hn : 1 ≤ n) (hN : 1 ≤ newN) (hd : newN ∣ n ∨ n ∣ newN) (h0 : 0 ≤ x) (h1 : x < newN)
    (hq : 2 * factorOf n newN * (20 * n + 11) < 2 ^ 24) {S : Finset Int}
    (hS : BoxSamples n newN x ((20 * n + 11) / 2 ^ 24) S) : S = blockOf n newN x := by
  obtain ⟨q, eq, hq1, -⟩ := block_facts hn hN hd
  rw [eq] at hq
  have hq' : (1 : ℚ) ≤ q := by exact_mod_cast hq1
  have hδ : (20 * (n : ℚ) + 11) / 2 ^ 24 < 1 / (2 * q) := by
    rw [div_lt_div_iff₀ (by norm_num) (by linarith), one_mul]
    have : 2 * (q : ℚ) * (20 * n + 11) < 2 ^ 24 := by exact_mod_cast hq
    linarith
  ext i
  obtain ⟨t, e, a, b⟩ := block_distance hn hN hd x i
  rw [eq] at e a b
  have ea : |(t : ℚ) / (2 * q)| = |(t : ℚ)| / (2 * q) := by rw [abs_div, abs_of_pos (by linarith : (0 : ℚ) < 2 * q)]
  constructor
  · intro hi
    by_contra hc
    have h := hS.far i hi
    rw [e, ea] at h
    have b' : (q : ℚ) + 1 ≤ |(t : ℚ)| := by exact_mod_cast b hc
    have : ((q : ℚ) + 1) / (2 * q) ≤ |(t : ℚ)| / (2 * q) := div_le_div_of_nonneg_right b' (by linarith)
    have e2 : ((q : ℚ) + 1) / (2 * q) = 1 / 2 + 1 / (2 * q) := by field_simp
    linarith
  · intro hi
    have r := block_range hn hN hd h0 h1
    have hi' := Finset.mem_Ico.1 hi
    refine hS.near i (by omega) (by omega) ?_
    rw [e, ea]
    have a' : |(t : ℚ)| ≤ (q : ℚ) - 1 := by exact_mod_cast a hi
    have : |(t : ℚ)| / (2 * q) ≤ ((q : ℚ) - 1) / (2 * q) := div_le_div_of_nonneg_right a' (by linarith)
    have e2 : ((q : ℚ) - 1) / (2 * q) = 1 / 2 - 1 / (2 * q) := by field_simp
    linarith

/-- The weighted mean is the average. -/
theorem block_mean {w h newW newH : Int} (hw : 1 ≤ w) (hh : 1 ≤ h) (hW : 1 ≤ newW) (hH : 1 ≤ newH) (hx : newW ∣ w ∨ w ∣ newW)
    (hy : newH ∣ h ∨ h ∣ newH) (img : Int → Int → Int) {x y : Int} (x0 : 0 ≤ x) (x1 : x < newW) (y0 : 0 ≤ y) (y1 : y < newH) :
    resizedValue box w h newW newH (fun i j => img i j) x y =
      ((∑ i ∈ blockOf w newW x, ∑ j ∈ blockOf h newH y, img i j : Int) : ℚ) / ((blockLength w newW * blockLength h newH : Int) : ℚ) := by
  have rx := block_range hw hW hx x0 x1
  have ry := block_range hh hH hy y0 y1
  have sub : ∀ {n newN x : Int}, 0 ≤ blockFirst n newN x ∧ 1 ≤ blockLength n newN ∧ blockFirst n newN x + blockLength n newN ≤ n →
      blockOf n newN x ⊆ spanOf ⟨0, n⟩ := by
    intro n newN x h
    unfold blockOf spanOf
    exact Finset.Ico_subset_Ico h.1 (by simpa using h.2.2)
  have s : ∀ {n newN x : Int}, 1 ≤ n → 1 ≤ newN → (newN ∣ n ∨ n ∣ newN) →
      0 ≤ blockFirst n newN x ∧ 1 ≤ blockLength n newN ∧ blockFirst n newN x + blockLength n newN ≤ n →
      ∀ f : Int → ℚ, ∑ i ∈ spanOf ⟨0, n⟩, sampleWeight box n newN x i * f i = ∑ i ∈ blockOf n newN x, f i := by
    intro n newN x hn hN hd hr f
    have : ∀ i ∈ spanOf ⟨0, n⟩, sampleWeight box n newN x i * f i = if i ∈ blockOf n newN x then f i else 0 := by
      intro i hi
      rw [block_weight hn hN hd]
      simp
    rw [Finset.sum_congr rfl this, Finset.sum_ite_mem, Finset.inter_eq_right.2 (sub hr)]
  have c : ∀ {n newN x : Int}, 1 ≤ n → 1 ≤ newN → (newN ∣ n ∨ n ∣ newN) →
      0 ≤ blockFirst n newN x ∧ 1 ≤ blockLength n newN ∧ blockFirst n newN x + blockLength n newN ≤ n →
      ∑ i ∈ spanOf ⟨0, n⟩, sampleWeight box n newN x i = blockLength n newN := by
    intro n newN x hn hN hd hr
    have := s hn hN hd hr fun _ => 1
    simp only [mul_one] at this
    rw [this, Finset.sum_const, nsmul_eq_mul, mul_one]
    unfold blockOf
    rw [Int.card_Ico]
    have e : ((blockFirst n newN x + blockLength n newN - blockFirst n newN x).toNat : Int) = blockLength n newN := by omega
    exact_mod_cast e
  unfold resizedValue
  rw [c hw hW hx rx, c hh hH hy ry]
  push_cast
  congr 1
  rw [← s hw hW hx rx]
  refine Finset.sum_congr rfl fun i _ => ?_
  rw [← s hh hH hy ry, Finset.mul_sum]
  exact Finset.sum_congr rfl fun j _ => mul_assoc _ _ _

/-- A quotient of integers without its fraction. -/
theorem floor_quotient (a : Int) {b : Int} (hb : 0 < b) : ⌊(a : ℚ) / (b : ℚ)⌋ = a / b := by
  obtain ⟨n, rfl⟩ := Int.eq_ofNat_of_zero_le hb.le
  exact_mod_cast Rat.floor_intCast_div_natCast a n

/-- The sum over a block is at most the number of pixels times the greatest value. -/
theorem block_sum_bounds {w h newW newH : Int} (hw : 1 ≤ w) (hh : 1 ≤ h) (hW : 1 ≤ newW) (hH : 1 ≤ newH) (hx : newW ∣ w ∨ w ∣ newW)
    (hy : newH ∣ h ∨ h ∣ newH) (top : Int) (img : Int → Int → Int) {x y : Int} (x0 : 0 ≤ x) (x1 : x < newW) (y0 : 0 ≤ y) (y1 : y < newH)
    (him : ∀ i j, 0 ≤ i → i < w → 0 ≤ j → j < h → 0 ≤ img i j ∧ img i j ≤ top) :
    0 ≤ ∑ i ∈ blockOf w newW x, ∑ j ∈ blockOf h newH y, img i j ∧
      ∑ i ∈ blockOf w newW x, ∑ j ∈ blockOf h newH y, img i j ≤ top * (blockLength w newW * blockLength h newH) := by
  have rx := block_range hw hW hx x0 x1
  have ry := block_range hh hH hy y0 y1
  have h' : ∀ i ∈ blockOf w newW x, ∀ j ∈ blockOf h newH y, 0 ≤ img i j ∧ img i j ≤ top := by
    intro i hi j hj
    have a := Finset.mem_Ico.1 hi
    have b := Finset.mem_Ico.1 hj
    exact him i j (by omega) (by omega) (by omega) (by omega)
  have card : ∀ {n newN x : Int}, 1 ≤ blockLength n newN → ((blockOf n newN x).card : Int) = blockLength n newN := by
    intro n newN x h
    unfold blockOf
    rw [Int.card_Ico]
    omega
  refine ⟨Finset.sum_nonneg fun i hi => Finset.sum_nonneg fun j hj => (h' i hi j hj).1, ?_⟩
  refine (Finset.sum_le_card_nsmul _ _ (blockLength h newH * top) fun i hi => ?_).trans_eq (by
    rw [nsmul_eq_mul, card rx.2.1]; ring)
  exact (Finset.sum_le_card_nsmul _ _ top fun j hj => (h' i hi j hj).2).trans_eq (by rw [nsmul_eq_mul, card ry.2.1])

end Nda
