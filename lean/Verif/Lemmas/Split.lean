import Verif.Model.Split
import Verif.Spec.Split
import Verif.Lemmas.Loops
import Mathlib.Tactic.Linarith
import Mathlib.Tactic.Ring

namespace Nda

/-- Number of pieces: the ceiling of `r / n`. -/
def pieces (n r : Int) : Nat := ((r + n - 1) / n).toNat

theorem pieces_zero {n : Int} (hn : 0 < n) : pieces n 0 = 0 := by
  unfold pieces
  rw [Int.ediv_eq_zero_of_lt (by omega) (by omega)]; rfl

theorem pieces_step {n r : Int} (hn : 0 < n) (hr : 0 < r) :
    pieces n r = pieces n (r - min n r) + 1 := by
  unfold pieces
  rcases le_total n r with h | h
  · rw [min_eq_left h]
    have : r + n - 1 = (r - n + n - 1) + 1 * n := by ring
    rw [this, Int.add_mul_ediv_right _ _ (by omega)]
    have : 0 ≤ (r - n + n - 1) / n := Int.ediv_nonneg (by omega) (by omega)
    omega
  · rw [min_eq_right h]
    have h1 : (r - r + n - 1) / n = 0 := Int.ediv_eq_zero_of_lt (by omega) (by omega)
    have h2 : (r + n - 1) / n = 1 := by
      have : r + n - 1 = (r - 1) + 1 * n := by ring
      rw [this, Int.add_mul_ediv_right _ _ (by omega), Int.ediv_eq_zero_of_lt (by omega) (by omega)]; rfl
    rw [h1, h2]; rfl

/-- The pieces of a dynamic split of `[m, m + r)`. -/
def dynPieces (n m r : Int) : List Interval :=
  (List.range (pieces n r)).map fun k : Nat => ⟨m + n * k, min n (r - n * k)⟩

theorem dynPieces_step {n m r : Int} (hn : 0 < n) (hr : 0 < r) :
    dynPieces n m r = ⟨m, min n r⟩ :: dynPieces n (m + min n r) (r - min n r) := by
  unfold dynPieces
  rw [pieces_step hn hr, List.range_succ_eq_map, List.map_cons, List.map_map]
  congr 1
  · simp
  · rcases le_total n r with h | h
    · rw [min_eq_left h]
      apply List.map_congr_left
      intro k _
      simp only [Function.comp, Nat.cast_succ]
      congr 1
      · ring
      · congr 1; ring
    · rw [min_eq_right h, sub_self, pieces_zero hn]; rfl

theorem dynLoop {v : Interval} {n : Int} (hn : 0 < n) :
    ∀ (R : Nat) (m : Int), m + R = v.max + 1 →
      (splitDynamic v n).loop ⟨⟨m, min n R⟩, v.max⟩ = some (dynPieces n m R) := by
  intro R
  induction R using Nat.strong_induction_on with
  | _ R ih =>
    intro m hm
    rw [SplitResult.loop]
    have heq : (SplitIt.mk ⟨m, min n R⟩ v.max).eq (splitDynamic v n).end_ =
        decide (m = v.max + 1) := by
      unfold SplitIt.eq splitDynamic
      by_cases h : m = v.max + 1 <;> simp [h]
    rw [heq]
    by_cases h0 : R = 0
    · subst h0
      rw [if_pos (by simp at hm; simp [hm])]
      simp [dynPieces, pieces_zero hn]
    · have hR : (0 : Int) < R := by omega
      rw [if_neg (by simp; omega)]
      have hstep : (splitDynamic v n).add ⟨⟨m, min n R⟩, v.max⟩ 1 =
          ⟨⟨m + min n (R : Int), min n ((R : Int) - min n (R : Int))⟩, v.max⟩ := by
        unfold splitDynamic SplitIt.addDynamic Interval.max
        simp only [imin_eq, mul_one]
        unfold Interval.max at hm
        congr 2
        omega
      rw [hstep]
      have hR' : ((R : Int) - min n (R : Int)) = ((R - (min n (R : Int)).toNat : Nat) : Int) := by
        omega
      rw [hR', ih _ (by omega) (m + min n (R : Int)) (by omega), ← hR', dynPieces_step hn hR]
      rfl

theorem dynIterate {v : Interval} {n : Int} (hn : 0 < n) (hv : 0 ≤ v.extent) :
    (splitDynamic v n).iterate = some (dynPieces n v.min v.extent) := by
  have := dynLoop (v := v) hn v.extent.toNat v.min (by unfold Interval.max; omega)
  rw [Int.toNat_of_nonneg hv] at this
  rw [← this]
  unfold SplitResult.iterate splitDynamic
  rw [imin_eq]

/-- The pieces of a static split. -/
def statPieces (e m r : Int) : List Interval :=
  (List.range (pieces e r)).map fun k : Nat => ⟨min (m + e * k) (m + r - e), e⟩

theorem statLoop {v : Interval} {e : Int} (he : 0 < e) :
    ∀ (R : Nat) (m : Int), m + R = v.max + 1 → (R = 0 ∨ e ≤ R) →
      (splitStatic e v).loop ⟨⟨m, e⟩, v.max⟩ = some (statPieces e m R) := by
  intro R
  induction R using Nat.strong_induction_on with
  | _ R ih =>
    intro m hm hR
    rw [SplitResult.loop]
    have heq : (SplitIt.mk ⟨m, e⟩ v.max).eq (splitStatic e v).end_ = decide (m = v.max + 1) := by
      unfold SplitIt.eq splitStatic
      by_cases h : m = v.max + 1 <;> simp [h]
    rw [heq]
    rcases hR with h0 | hR
    · subst h0
      rw [if_pos (by simp at hm; simp [hm])]
      simp [statPieces, pieces_zero he]
    · rw [if_neg (by simp; omega)]
      by_cases hs : 0 < (R : Int) - e ∧ (R : Int) - e < e
      · -- the next interval is shifted back to end at the outer max
        have hstep : (splitStatic e v).add ⟨⟨m, e⟩, v.max⟩ 1 = ⟨⟨v.max - e + 1, e⟩, v.max⟩ := by
          unfold splitStatic SplitIt.addStatic
          simp only [mul_one]
          rw [if_pos]
          constructor
          · show m + e ≤ v.max; omega
          · show m + e + e - 1 > v.max; omega
        rw [hstep]
        have hlt : e.toNat < R := by omega
        have := ih e.toNat hlt (v.max - e + 1) (by omega) (Or.inr (by omega))
        rw [this]
        have h1 : pieces e R = 2 := by
          rw [pieces_step he (by omega), min_eq_left (by omega), pieces_step he (by omega),
            min_eq_right (by omega), sub_self, pieces_zero he]
        have h2 : pieces e (e.toNat : Int) = 1 := by
          rw [pieces_step he (by omega), min_eq_left (by omega)]
          rw [show ((e.toNat : Int) - e) = 0 by omega, pieces_zero he]
        simp only [statPieces, h1, h2]
        simp [List.range_succ]
        omega
      · have hstep : (splitStatic e v).add ⟨⟨m, e⟩, v.max⟩ 1 = ⟨⟨m + e, e⟩, v.max⟩ := by
          unfold splitStatic SplitIt.addStatic
          simp only [mul_one]
          rw [if_neg]
          rintro ⟨h1, h2⟩
          have h1 : m + e ≤ v.max := h1
          have h2 : m + e + e - 1 > v.max := h2
          omega
        rw [hstep]
        have hR' : ((R - e.toNat : Nat) : Int) = (R : Int) - e := by omega
        have := ih (R - e.toNat) (by omega) (m + e) (by omega) (by omega)
        rw [this, hR']
        unfold statPieces
        rw [pieces_step (r := (R : Int)) he (by omega), min_eq_left hR, List.range_succ_eq_map, List.map_cons,
          List.map_map]
        simp only [Option.bind_eq_bind, Option.bind_some]
        show some _ = some _
        congr 2
        · simp; omega
        · apply List.map_congr_left
          intro k _
          simp only [Function.comp, Nat.cast_succ]
          congr 1
          have : e * ((k : Int) + 1) = e * k + e := by ring
          rw [this]
          congr 1 <;> omega

theorem statIterate {v : Interval} {e : Int} (he : 0 < e) (hv : v.extent = 0 ∨ e ≤ v.extent) :
    (splitStatic e v).iterate = some (statPieces e v.min v.extent) := by
  have := statLoop (v := v) he v.extent.toNat v.min (by unfold Interval.max; omega) (by omega)
  rw [Int.toNat_of_nonneg (by omega)] at this
  exact this

/-- Past its end a static split iterator never comes back. -/
theorem statLoop_diverges {v : Interval} {e : Int} (he : 0 < e) :
    ∀ (it : SplitIt) (l : List Interval), (splitStatic e v).loop it = some l →
      it.outerMax = v.max → it.i.extent = e → it.i.min ≤ v.max + 1 := by
  refine SplitResult.loop.partial_correctness (splitStatic e v)
    (fun it _ => it.outerMax = v.max → it.i.extent = e → it.i.min ≤ v.max + 1) ?_
  intro f ih it r hr h1 h2
  split at hr
  · rename_i h
    unfold SplitIt.eq splitStatic at h
    simp at h
    omega
  · cases hf : f ((splitStatic e v).add it 1) with
    | none => simp [hf] at hr
    | some rest =>
      have := ih _ _ hf
      by_contra hc
      have hadd : (splitStatic e v).add it 1 = ⟨⟨it.i.min + e, e⟩, v.max⟩ := by
        unfold splitStatic SplitIt.addStatic
        simp only [mul_one, h1, h2]
        rw [if_neg]
        intro hcc
        have := hcc.1
        omega
      rw [hadd] at this
      have := this rfl rfl
      simp only at this
      omega


open Spec

theorem pieces_isCeilDiv {n r : Int} (hn : 0 < n) (hr : 0 ≤ r) :
    IsCeilDiv (pieces n r : Int) r n := by
  unfold IsCeilDiv pieces
  have h0 : 0 ≤ (r + n - 1) / n := Int.ediv_nonneg (by omega) (by omega)
  rw [Int.toNat_of_nonneg h0]
  have h1 := Int.ediv_mul_le (r + n - 1) (show n ≠ 0 by omega)
  have h2 := Int.lt_ediv_add_one_mul_self (r + n - 1) hn
  have e1 : ((r + n - 1) / n - 1) * n = (r + n - 1) / n * n - n := by ring
  have e2 : ((r + n - 1) / n + 1) * n = (r + n - 1) / n * n + n := by ring
  rw [e1]
  omega

theorem Spec.IsCeilDiv.unique {q q' r n : Int} (hn : 0 < n) (h : IsCeilDiv q r n)
    (h' : IsCeilDiv q' r n) : q = q' := by
  obtain ⟨a, b⟩ := h
  obtain ⟨a', b'⟩ := h'
  have h1 : q - 1 < q' := by
    by_contra hc
    have : q' * n ≤ (q - 1) * n := mul_le_mul_of_nonneg_right (by omega) (by omega)
    omega
  have h2 : q' - 1 < q := by
    by_contra hc
    have : q * n ≤ (q' - 1) * n := mul_le_mul_of_nonneg_right (by omega) (by omega)
    omega
  omega

theorem Spec.Tiles.le {l : List Interval} {m e : Int} (h : Tiles m l e) : m ≤ e := by
  induction l generalizing m with
  | nil => exact le_of_eq h
  | cons i l ih => have := ih h.2.2; have := h.2.1; omega

theorem Spec.Tiles.mem {l : List Interval} {m e : Int} (h : Tiles m l e) (x : Int) :
    (m ≤ x ∧ x < e) ↔ ∃ i ∈ l, InIvl i x := by
  induction l generalizing m with
  | nil => simp only [Tiles] at h; simp; omega
  | cons i l ih =>
    have h3 := ih h.2.2
    have hle := h.2.2.le
    have := h.2.1
    have := h.1
    simp only [List.mem_cons, exists_eq_or_imp, ← h3]
    unfold InIvl
    omega

theorem Spec.Tiles.pairwise {l : List Interval} {m e : Int} (h : Tiles m l e) :
    l.Pairwise (fun a b => a.min + a.extent ≤ b.min) := by
  induction l generalizing m with
  | nil => exact List.Pairwise.nil
  | cons i l ih =>
    refine List.Pairwise.cons ?_ (ih h.2.2)
    intro b hb
    have hb2 : ∀ {l : List Interval} {m e : Int}, Tiles m l e → ∀ b ∈ l, m ≤ b.min ∧ 0 < b.extent := by
      intro l
      induction l with
      | nil => intro _ _ _ b hb; simp at hb
      | cons j l ih2 =>
        intro m e ht b hb
        rcases List.mem_cons.1 hb with rfl | hb
        · exact ⟨ht.1.ge, ht.2.1⟩
        · have := ih2 ht.2.2 b hb; have := ht.2.1; omega
    have := hb2 h.2.2 b hb
    have := h.1
    omega

theorem dynPieces_tiles {n : Int} (hn : 0 < n) : ∀ (R : Nat) (m : Int),
    Tiles m (dynPieces n m R) (m + R) := by
  intro R
  induction R using Nat.strong_induction_on with
  | _ R ih =>
    intro m
    by_cases h0 : R = 0
    · subst h0; simp [dynPieces, pieces_zero hn, Tiles]
    · rw [dynPieces_step hn (by omega)]
      refine ⟨rfl, by simp; omega, ?_⟩
      have hR' : ((R : Int) - min n (R : Int)) = ((R - (min n (R : Int)).toNat : Nat) : Int) := by
        omega
      have := ih (R - (min n (R : Int)).toNat) (by omega) (m + min n (R : Int))
      rw [hR']
      convert this using 1
      omega

theorem mul_lt_of_lt_pieces {n r : Int} {k : Nat} (hn : 0 < n) (hr : 0 ≤ r)
    (hk : k < pieces n r) : n * k < r := by
  have h := (pieces_isCeilDiv hn hr).1
  have : (k : Int) * n ≤ ((pieces n r : Int) - 1) * n :=
    mul_le_mul_of_nonneg_right (by omega) (by omega)
  rw [mul_comm]
  omega

theorem mul_le_of_succ_lt_pieces {n r : Int} {k : Nat} (hn : 0 < n) (hr : 0 ≤ r)
    (hk : k + 1 < pieces n r) : n * k + n < r := by
  have := mul_lt_of_lt_pieces hn hr hk
  have e : n * ((k + 1 : Nat) : Int) = n * k + n := by push_cast; ring
  omega

theorem le_mul_of_pieces_le {n r : Int} {k : Nat} (hn : 0 < n) (hr : 0 ≤ r)
    (hk : pieces n r ≤ k) : r ≤ n * k := by
  have h := (pieces_isCeilDiv hn hr).2
  have : (pieces n r : Int) * n ≤ (k : Int) * n :=
    mul_le_mul_of_nonneg_right (by omega) (by omega)
  rw [mul_comm]
  omega

/-- Uniqueness in the form used to evaluate `operator-`. -/
theorem ediv_eq_of_bounds {a n : Int} {q : Int} (hn : 0 < n) (h1 : q * n ≤ a) (h2 : a < q * n + n) :
    a / n = q := by
  have h : a = (a - q * n) + q * n := by ring
  rw [h, Int.add_mul_ediv_right _ _ (by omega), Int.ediv_eq_zero_of_lt (by omega) (by omega)]
  simp

theorem pieces_of_le {n r : Int} (h : 0 < r) (h2 : r ≤ n) : pieces n r = 1 := by
  rw [pieces_step (by omega) h, min_eq_right h2, sub_self, pieces_zero (by omega)]

theorem dynSize {v : Interval} {n : Int} (hn : 0 < n) (hv : 0 ≤ v.extent) :
    (splitDynamic v n).size = pieces n v.extent := by
  unfold SplitResult.size splitDynamic SplitIt.sub
  simp only [imin_eq]
  by_cases h0 : v.extent = 0
  · rw [if_neg (by omega), h0, pieces_zero hn]; rfl
  · rw [if_pos (by omega)]
    rw [Int.tdiv_eq_ediv_of_nonneg (by unfold Interval.max; simp only; omega)]
    unfold Interval.max
    rcases le_total n v.extent with h | h
    · simp only [min_eq_left h]
      apply ediv_eq_of_bounds hn
      · have := (pieces_isCeilDiv hn hv).1
        have e : ((pieces n v.extent : Int) - 1) * n = (pieces n v.extent : Int) * n - n := by ring
        omega
      · have := (pieces_isCeilDiv hn hv).2
        omega
    · simp only [min_eq_right h, pieces_of_le (show 0 < v.extent by omega) h]
      apply ediv_eq_of_bounds (by omega) <;> simp <;> omega

theorem statSize {v : Interval} {e : Int} (he : 0 < e) (hv : 0 ≤ v.extent) :
    (splitStatic e v).size = pieces e v.extent := by
  unfold SplitResult.size splitStatic SplitIt.sub
  simp only
  rw [if_pos he, Int.tdiv_eq_ediv_of_nonneg (by unfold Interval.max; simp only; omega)]
  unfold Interval.max
  have h1 := (pieces_isCeilDiv he hv).1
  have h2 := (pieces_isCeilDiv he hv).2
  have e1 : ((pieces e v.extent : Int) - 1) * e = (pieces e v.extent : Int) * e - e := by ring
  apply ediv_eq_of_bounds he
  · simp only; omega
  · simp only; omega

/-- Random access into a dynamic split. -/
theorem dynGet {v : Interval} {n : Int} (hn : 0 < n) (hv : 0 ≤ v.extent) {k : Nat}
    (hk : k < pieces n v.extent) :
    (splitDynamic v n).add (splitDynamic v n).begin_ k =
      ⟨⟨v.min + n * k, min n (v.extent - n * k)⟩, v.max⟩ := by
  have hkn := mul_lt_of_lt_pieces hn hv hk
  have hnk : 0 ≤ n * (k : Int) := by positivity
  unfold splitDynamic SplitIt.addDynamic Interval.max
  simp only [imin_eq]
  have e : min n v.extent * (k : Int) = n * k := by
    rcases le_total n v.extent with h | h
    · rw [min_eq_left h]
    · rw [pieces_of_le (by omega) h] at hk
      obtain rfl : k = 0 := by omega
      simp
  rw [e]
  congr 2
  rcases le_total n v.extent with h | h
  · rw [min_eq_left h]; omega
  · rw [pieces_of_le (by omega) h] at hk
    obtain rfl : k = 0 := by omega
    simp; omega

/-- Random access into a static split. -/
theorem statGet {v : Interval} {e : Int} (he : 0 < e) (hv : e ≤ v.extent) {k : Nat}
    (hk : k < pieces e v.extent) :
    (splitStatic e v).add (splitStatic e v).begin_ k =
      ⟨⟨min (v.min + e * k) (v.min + v.extent - e), e⟩, v.max⟩ := by
  have hkn := mul_lt_of_lt_pieces he (by omega) hk
  unfold splitStatic SplitIt.addStatic Interval.max
  simp only
  by_cases h : v.min + e * (k : Int) + e - 1 > v.min + v.extent - 1
  · rw [if_pos ⟨by omega, h⟩]
    congr 2
    rw [min_eq_right (by omega)]; omega
  · rw [if_neg (by omega)]
    congr 2
    rw [min_eq_left (by omega)]

/-- With a non-positive inner extent a dynamic split iterator never advances to the end. -/
theorem dynLoop_diverges {v : Interval} {n : Int} :
    ∀ (it : SplitIt) (l : List Interval), (splitDynamic v n).loop it = some l →
      it.outerMax = v.max → it.i.extent ≤ 0 → v.max < it.i.min := by
  refine SplitResult.loop.partial_correctness (splitDynamic v n)
    (fun it _ => it.outerMax = v.max → it.i.extent ≤ 0 → v.max < it.i.min) ?_
  intro f ih it r hr h1 h2
  split at hr
  · rename_i h
    unfold SplitIt.eq splitDynamic at h
    simp at h
    omega
  · cases hf : f ((splitDynamic v n).add it 1) with
    | none => simp [hf] at hr
    | some rest =>
      have := ih _ _ hf
      by_contra hc
      have hadd : (splitDynamic v n).add it 1 =
          ⟨⟨it.i.min + it.i.extent, it.i.extent⟩, v.max⟩ := by
        unfold splitDynamic SplitIt.addDynamic
        simp only [mul_one, h1, imin_eq]
        congr 2
        unfold Interval.max at *
        simp only
        omega
      rw [hadd] at this
      have := this rfl h2
      simp only at this
      omega

end Nda
