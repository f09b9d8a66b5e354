import Verif.Lemmas.Split
/-
C24 (split by a run-time factor), C25 (split by a compile-time factor), C26 (random access into
splits) and C27 (clamp).
-/
namespace Nda
open Spec

/-! ### C24 -/

/-- C24: iterating `split(v, n)` terminates; the intervals are consecutive and non-empty from
`v.min` to the end of `v`, all have extent at most `n`, all but the last have extent `n`; `size()`
is the number of intervals and is the ceiling of `extent / n`. -/
theorem C24_partition (v : Interval) (n : Int) (hn : 0 < n) (hv : 0 ≤ v.extent) :
    ∃ l, (splitDynamic v n).iterate = some l ∧ Tiles v.min l (v.min + v.extent) ∧
      (∀ i ∈ l, i.extent ≤ n) ∧ (∀ i ∈ l.dropLast, i.extent = n) ∧
      (splitDynamic v n).size = l.length ∧ IsCeilDiv l.length v.extent n := by
  refine ⟨_, dynIterate hn hv, ?_, ?_, ?_, ?_, ?_⟩
  · have := dynPieces_tiles hn v.extent.toNat v.min
    rwa [Int.toNat_of_nonneg hv] at this
  · intro i hi
    simp only [dynPieces, List.mem_map] at hi
    obtain ⟨k, _, rfl⟩ := hi
    exact min_le_left _ _
  · intro i hi
    rw [dynPieces, ← List.map_dropLast] at hi
    simp only [List.mem_map] at hi
    obtain ⟨k, hk, rfl⟩ := hi
    have hk' : k + 1 < pieces n v.extent := by
      rw [List.dropLast_eq_take, List.mem_take_iff_getElem] at hk
      obtain ⟨j, hj, rfl⟩ := hk
      simp at hj ⊢
      omega
    have := mul_le_of_succ_lt_pieces hn hv hk'
    simp only
    omega
  · rw [dynSize hn hv]; simp [dynPieces]
  · have := pieces_isCeilDiv hn hv
    simpa [dynPieces] using this

/-- C24: every index of `v` lies in exactly one of the intervals, and no other index lies in any. -/
theorem C24_each_index_once (v : Interval) (n : Int) (hn : 0 < n) (hv : 0 ≤ v.extent) :
    ∃ l, (splitDynamic v n).iterate = some l ∧
      (∀ x, InIvl v x ↔ ∃ i ∈ l, InIvl i x) ∧
      l.Pairwise (fun a b => ∀ x, ¬ (InIvl a x ∧ InIvl b x)) := by
  obtain ⟨l, h1, h2, -⟩ := C24_partition v n hn hv
  refine ⟨l, h1, fun x => h2.mem x, h2.pairwise.imp ?_⟩
  intro a b hab x hx
  have := hx.1.2
  have := hx.2.1
  omega

/-- C24, outside its hypothesis: a non-positive inner extent on a non-empty interval never
terminates (nothing in the code checks for it). -/
theorem C24_nonpositive_diverges (v : Interval) (n : Int) (hn : n ≤ 0) (hv : 0 < v.extent) :
    (splitDynamic v n).iterate = none := by
  cases h : (splitDynamic v n).iterate with
  | none => rfl
  | some l =>
    have := dynLoop_diverges _ _ h rfl
      (by show imin n v.extent ≤ 0; rw [imin_eq]; omega)
    have h2 : v.max < v.min := this
    unfold Interval.max at h2
    omega

example : (splitDynamic ⟨0, 12⟩ 5).iterate = some [⟨0, 5⟩, ⟨5, 5⟩, ⟨10, 2⟩] :=
  dynIterate (by decide) (by decide)
example : (splitDynamic ⟨-3, 2⟩ 5).iterate = some [⟨-3, 2⟩] :=
  dynIterate (by decide) (by decide)

/-! ### C25 -/

/-- C25: for `extent ≥ N > 0` iterating `split<N>(v)` terminates after `ceil(extent / N)`
intervals, all of extent `N`; the k-th starts at `v.min + N*k` except that the last one is moved
back so that it ends exactly at the end of `v`. -/
theorem C25_intervals (v : Interval) (N : Int) (hN : 0 < N) (hv : N ≤ v.extent) :
    ∃ l, (splitStatic N v).iterate = some l ∧
      (splitStatic N v).size = l.length ∧ IsCeilDiv l.length v.extent N ∧
      (∀ k i, l[k]? = some i → i.extent = N ∧
        (k + 1 < l.length → i.min = v.min + N * k) ∧
        (k + 1 = l.length → i.min = v.min + v.extent - N)) := by
  refine ⟨_, statIterate hN (Or.inr hv), ?_, ?_, ?_⟩
  · rw [statSize hN (by omega)]; simp [statPieces]
  · simpa [statPieces] using pieces_isCeilDiv hN (show 0 ≤ v.extent by omega)
  · intro k i hi
    have hlen : (statPieces N v.min v.extent).length = pieces N v.extent := by simp [statPieces]
    have hk : k < pieces N v.extent := by
      rw [← hlen]; exact (List.getElem?_eq_some_iff.1 hi).1
    simp only [statPieces, List.getElem?_map, List.getElem?_range hk, Option.map_some,
      Option.some.injEq] at hi
    subst hi
    rw [hlen]
    refine ⟨rfl, fun h => ?_, fun h => ?_⟩
    · have := mul_le_of_succ_lt_pieces hN (show 0 ≤ v.extent by omega) h
      simp only
      omega
    · have := le_mul_of_pieces_le hN (show 0 ≤ v.extent by omega) h.ge
      have e : N * ((k + 1 : Nat) : Int) = N * k + N := by push_cast; ring
      simp only
      omega

/-- C25: every interval lies inside `v`, together they cover `v`, and two intervals overlap only
if they are the last two. -/
theorem C25_cover (v : Interval) (N : Int) (hN : 0 < N) (hv : N ≤ v.extent) :
    ∃ l, (splitStatic N v).iterate = some l ∧
      (∀ x, InIvl v x ↔ ∃ i ∈ l, InIvl i x) ∧
      (∀ j k a b x, l[j]? = some a → l[k]? = some b → j < k → InIvl a x → InIvl b x →
        j + 2 = l.length ∧ k + 1 = l.length) := by
  obtain ⟨l, h1, -, hc, hl⟩ := C25_intervals v N hN hv
  have hpos : 0 < l.length := by
    rcases Nat.eq_zero_or_pos l.length with h | h
    · rw [h] at hc; have := hc.2; simp at this; omega
    · exact h
  have hmono : ∀ {a b : Nat}, a ≤ b → N * (a : Int) ≤ N * (b : Int) := fun h =>
    mul_le_mul_of_nonneg_left (by exact_mod_cast h) (by omega)
  have hlast : N * ((l.length - 1 : Nat) : Int) < v.extent := by
    have := hc.1
    have e : ((l.length : Int) - 1) = ((l.length - 1 : Nat) : Int) := by omega
    rw [e, mul_comm] at this
    exact this
  have hsucc : ∀ k : Nat, N * ((k + 1 : Nat) : Int) = N * k + N := fun k => by push_cast; ring
  refine ⟨l, h1, fun x => ⟨fun hx => ?_, ?_⟩, ?_⟩
  · -- the last interval, or the one with number (x - min) / N
    by_cases hx2 : v.min + v.extent - N ≤ x
    · refine ⟨l[l.length - 1], List.getElem_mem _, ?_⟩
      obtain ⟨a, b, c⟩ := hl (l.length - 1) _ (List.getElem?_eq_getElem (by omega))
      have := c (by omega)
      have := hx.2
      unfold InIvl
      omega
    · have hx1 := hx.1
      have hd0 : 0 ≤ (x - v.min) / N := Int.ediv_nonneg (by omega) (by omega)
      have hd1 := Int.ediv_mul_le (x - v.min) (show N ≠ 0 by omega)
      have hd2 := Int.lt_ediv_add_one_mul_self (x - v.min) hN
      obtain ⟨k, hk⟩ := Int.eq_ofNat_of_zero_le hd0
      have e1 : ((x - v.min) / N) * N = N * k := by rw [hk]; ring
      have e2 : ((x - v.min) / N + 1) * N = N * k + N := by rw [hk]; ring
      have hkl : k + 1 < l.length := by
        by_contra hc2
        have := hmono (show l.length - 1 ≤ k by omega)
        have := hc.2
        have e : (l.length : Int) * N = N * ((l.length - 1 : Nat) : Int) + N := by
          rw [← hsucc, mul_comm]; congr 2; omega
        omega
      refine ⟨l[k], List.getElem_mem _, ?_⟩
      obtain ⟨a, b, c⟩ := hl k _ (List.getElem?_eq_getElem (by omega))
      have := b hkl
      unfold InIvl
      omega
  · rintro ⟨i, hi, hx⟩
    obtain ⟨k, hk, rfl⟩ := List.getElem_of_mem hi
    obtain ⟨a, b, c⟩ := hl k _ (List.getElem?_eq_getElem hk)
    have hx1 := hx.1
    have hx2 := hx.2
    unfold InIvl
    have h0 : 0 ≤ N * (k : Int) := by positivity
    by_cases hk1 : k + 1 < l.length
    · have := b hk1
      have := hmono (show k + 1 ≤ l.length - 1 by omega)
      have := hsucc k
      omega
    · have := c (by omega)
      omega
  · intro j k a b x ha hb hjk hxa hxb
    have hkl := (List.getElem?_eq_some_iff.1 hb).1
    obtain ⟨ea, ha1, -⟩ := hl j a ha
    obtain ⟨eb, hb1, hb2⟩ := hl k b hb
    have ha1 := ha1 (by omega)
    have := hxa.2
    have := hxb.1
    have := hsucc j
    by_cases hk1 : k + 1 < l.length
    · have := hb1 hk1
      have := hmono (show j + 1 ≤ k by omega)
      omega
    · have := hb2 (by omega)
      refine ⟨?_, by omega⟩
      by_contra hne
      have := hmono (show j + 2 ≤ l.length - 1 by omega)
      have e : N * ((j + 2 : Nat) : Int) = N * j + N + N := by push_cast; ring
      omega

/-- C25: an empty `v` fails the code's assertion but produces no intervals. -/
theorem C25_empty (v : Interval) (N : Int) (hN : 0 < N) (hv : v.extent = 0) :
    (splitStatic N v).iterate = some [] := by
  rw [statIterate hN (Or.inl hv), hv]
  simp [statPieces, pieces_zero hN]

/-- C25, negative part: if `v` is non-empty but smaller than `N`, iteration never terminates. -/
theorem C25_small_diverges (v : Interval) (N : Int) (h0 : 0 < v.extent) (hv : v.extent < N) :
    (splitStatic N v).iterate = none := by
  cases h : (splitStatic N v).iterate with
  | none => rfl
  | some l =>
    unfold SplitResult.iterate at h
    rw [SplitResult.loop] at h
    split at h
    · rename_i h2
      unfold SplitIt.eq splitStatic Interval.max at h2
      simp at h2
      omega
    · cases h3 : (splitStatic N v).loop
          ((splitStatic N v).add (splitStatic N v).begin_ 1) with
      | none => simp [h3] at h
      | some rest =>
        have hadd : (splitStatic N v).add (splitStatic N v).begin_ 1 =
            ⟨⟨v.min + N, N⟩, v.max⟩ := by
          unfold splitStatic SplitIt.addStatic
          simp only [mul_one]
          rw [if_neg]
          rintro ⟨h4, -⟩
          have h4 : v.min + N ≤ v.max := h4
          unfold Interval.max at h4
          omega
        rw [hadd] at h3
        have := statLoop_diverges (by omega) _ _ h3 rfl rfl
        simp only [Interval.max] at this
        omega

/-- C25: the assertion of `split<N>` is exactly the condition for a non-empty interval to be covered:
if it holds, the iteration ends and its intervals, all of extent `N`, cover `v` and nothing else; if it
fails on a non-empty interval, the iteration never ends. -/
theorem C25_assertion (v : Interval) (N : Int) (hN : 0 < N) (hv : 0 < v.extent) :
    (splitStaticAssert N v = true →
      ∃ l, (splitStatic N v).iterate = some l ∧ (∀ i ∈ l, i.extent = N) ∧
        ∀ x, InIvl v x ↔ ∃ i ∈ l, InIvl i x) ∧
    (splitStaticAssert N v = false → (splitStatic N v).iterate = none) := by
  constructor
  · intro h
    have h : N ≤ v.extent := of_decide_eq_true h
    obtain ⟨l, h1, -, -, h2⟩ := C25_intervals v N hN h
    obtain ⟨l', h3, h4, -⟩ := C25_cover v N hN h
    obtain rfl : l = l' := Option.some.inj (h1.symm.trans h3)
    refine ⟨l, h1, fun i hi => ?_, h4⟩
    obtain ⟨k, hk⟩ := List.getElem?_of_mem hi
    exact (h2 k i hk).1
  · intro h
    have h : ¬ (v.extent ≥ N) := of_decide_eq_false h
    exact C25_small_diverges v N hv (by omega)

example : (splitStatic 5 ⟨0, 12⟩).iterate = some [⟨0, 5⟩, ⟨5, 5⟩, ⟨7, 5⟩] :=
  statIterate (by decide) (by decide)
example : (splitStatic 4 ⟨0, 8⟩).iterate = some [⟨0, 4⟩, ⟨4, 4⟩] :=
  statIterate (by decide) (by decide)
/-- The resample example splits the rows by 64; an image with 63 rows would loop forever (and
read out of bounds), unless assertions are enabled. -/
example : (splitStatic 64 ⟨0, 63⟩).iterate = none ∧ splitStaticAssert 64 ⟨0, 63⟩ = false :=
  ⟨C25_small_diverges _ _ (by decide) (by decide), by decide⟩

/-! ### C26 -/

/-- C26: `split(v, n)[k]` is the k-th interval of the iteration. -/
theorem C26_dynamic_random_access (v : Interval) (n : Int) (hn : 0 < n) (hv : 0 ≤ v.extent) :
    ∃ l, (splitDynamic v n).iterate = some l ∧
      ∀ k : Nat, (k : Int) < (splitDynamic v n).size → l[k]? = some ((splitDynamic v n).get k) := by
  refine ⟨_, dynIterate hn hv, fun k hk => ?_⟩
  rw [dynSize hn hv] at hk
  have hk : k < pieces n v.extent := by omega
  unfold SplitResult.get
  rw [dynGet hn hv hk]
  simp [dynPieces, hk]

/-- C26: `split<N>(v)[k]` is the k-th interval of the iteration. -/
theorem C26_static_random_access (v : Interval) (N : Int) (hN : 0 < N) (hv : N ≤ v.extent) :
    ∃ l, (splitStatic N v).iterate = some l ∧
      ∀ k : Nat, (k : Int) < (splitStatic N v).size → l[k]? = some ((splitStatic N v).get k) := by
  refine ⟨_, statIterate hN (Or.inr hv), fun k hk => ?_⟩
  rw [statSize hN (by omega)] at hk
  have hk : k < pieces N v.extent := by omega
  unfold SplitResult.get
  rw [statGet hN hv hk]
  simp [statPieces, hk]

/-- C26: advancing in two steps is advancing once, `(begin + j) + k = begin + (j + k)`, as long as
the result is before the end (run-time factor). -/
theorem C26_dynamic_add_add (v : Interval) (n : Int) (hn : 0 < n) (hv : 0 ≤ v.extent) (j k : Nat)
    (h : ((j + k : Nat) : Int) < (splitDynamic v n).size) :
    let r := splitDynamic v n
    r.add (r.add r.begin_ j) k = r.add r.begin_ ((j + k : Nat) : Int) := by
  intro r
  rw [dynSize hn hv] at h
  have h : j + k < pieces n v.extent := by omega
  rw [dynGet hn hv h, dynGet hn hv (show j < _ by omega)]
  have hlt := mul_lt_of_lt_pieces hn hv h
  have e1 : n * ((j + k : Nat) : Int) = n * j + n * k := by push_cast; ring
  show SplitIt.addDynamic _ _ = _
  unfold SplitIt.addDynamic Interval.max
  simp only [imin_eq]
  by_cases hk : k = 0
  · subst hk
    simp
    omega
  · have hnk : n ≤ n * (k : Int) := by
      have : n * 1 ≤ n * (k : Int) := mul_le_mul_of_nonneg_left (by omega) (by omega)
      omega
    have e2 : min n (v.extent - n * (j : Int)) = n := by omega
    rw [e2]
    congr 2 <;> omega

/-- C26: the same for a compile-time factor. -/
theorem C26_static_add_add (v : Interval) (N : Int) (hN : 0 < N) (hv : N ≤ v.extent) (j k : Nat)
    (h : ((j + k : Nat) : Int) < (splitStatic N v).size) :
    let r := splitStatic N v
    r.add (r.add r.begin_ j) k = r.add r.begin_ ((j + k : Nat) : Int) := by
  intro r
  rw [statSize hN (by omega)] at h
  have h : j + k < pieces N v.extent := by omega
  rw [statGet hN hv h, statGet hN hv (show j < _ by omega)]
  have hlt := mul_lt_of_lt_pieces hN (by omega) h
  have e1 : N * ((j + k : Nat) : Int) = N * j + N * k := by push_cast; ring
  have hj0 : 0 ≤ N * (j : Int) := by positivity
  show SplitIt.addStatic _ _ _ = _
  unfold SplitIt.addStatic Interval.max
  simp only
  by_cases hk : k = 0
  · subst hk
    rw [if_neg]
    · simp
    · simp only [Nat.cast_zero, mul_zero]
      omega
  · have hnk : N ≤ N * (k : Int) := by
      have : N * 1 ≤ N * (k : Int) := mul_le_mul_of_nonneg_left (by omega) (by omega)
      omega
    rw [min_eq_left (by omega)]
    by_cases hs : v.min + N * (j : Int) + N * k + N - 1 > v.min + v.extent - 1
    · rw [if_pos ⟨by omega, hs⟩]
      congr 2
      omega
    · rw [if_neg (by omega)]
      congr 2
      omega

/-- C26: iterator differences. `(begin + k) - begin = k` and `end - (begin + k) = size - k`. -/
theorem C26_dynamic_difference (v : Interval) (n : Int) (hn : 0 < n) (hv : 0 ≤ v.extent) (k : Nat)
    (h : (k : Int) < (splitDynamic v n).size) :
    let r := splitDynamic v n
    (r.add r.begin_ k).sub r.begin_ = k ∧ r.end_.sub (r.add r.begin_ k) = r.size - k := by
  intro r
  have hsz : r.size = pieces n v.extent := dynSize hn hv
  rw [dynSize hn hv] at h
  have h : k < pieces n v.extent := by omega
  rw [hsz, dynGet hn hv h]
  have hlt := mul_lt_of_lt_pieces hn hv h
  have hk0 : 0 ≤ n * (k : Int) := by positivity
  constructor
  · show SplitIt.sub _ ⟨⟨v.min, imin n v.extent⟩, v.max⟩ = _
    unfold SplitIt.sub Interval.max
    simp only [imin_eq]
    rw [if_pos (by omega), Int.tdiv_eq_ediv_of_nonneg (by omega)]
    rcases le_total n v.extent with h2 | h2
    · rw [min_eq_left h2]
      have e : (k : Int) * n = n * k := mul_comm _ _
      exact ediv_eq_of_bounds hn (by omega) (by omega)
    · rw [min_eq_right h2]
      rw [pieces_of_le (by omega) h2] at h
      obtain rfl : k = 0 := by omega
      exact ediv_eq_of_bounds (by omega) (by simp; omega) (by simp; omega)
  · show SplitIt.sub ⟨⟨v.max + 1, 0⟩, v.max⟩ _ = _
    unfold SplitIt.sub Interval.max
    simp only
    rw [if_pos (by omega), Int.tdiv_eq_ediv_of_nonneg (by omega)]
    by_cases hl : k + 1 = pieces n v.extent
    · have h3 := le_mul_of_pieces_le hn hv hl.ge
      have e : n * ((k + 1 : Nat) : Int) = n * k + n := by push_cast; ring
      rw [min_eq_right (by omega), ← hl]
      apply ediv_eq_of_bounds (by omega)
      · push_cast; simp only [add_sub_cancel_left, one_mul]; omega
      · push_cast; simp only [add_sub_cancel_left, one_mul]; omega
    · have h3 := mul_le_of_succ_lt_pieces hn hv (show k + 1 < _ by omega)
      rw [min_eq_left (by omega)]
      have h4 := pieces_isCeilDiv hn hv
      obtain ⟨h5, h6⟩ := h4
      have e1 : ((pieces n v.extent : Int) - 1) * n = (pieces n v.extent : Int) * n - n := by ring
      have e2 : ((pieces n v.extent : Int) - k) * n = (pieces n v.extent : Int) * n - n * k := by ring
      apply ediv_eq_of_bounds hn <;> omega

theorem C26_static_difference (v : Interval) (N : Int) (hN : 0 < N) (hv : N ≤ v.extent) (k : Nat)
    (h : (k : Int) < (splitStatic N v).size) :
    let r := splitStatic N v
    (r.add r.begin_ k).sub r.begin_ = k ∧ r.end_.sub (r.add r.begin_ k) = r.size - k := by
  intro r
  have hsz : r.size = pieces N v.extent := statSize hN (by omega)
  rw [statSize hN (by omega)] at h
  have h : k < pieces N v.extent := by omega
  rw [hsz, statGet hN hv h]
  have hlt := mul_lt_of_lt_pieces hN (by omega) h
  have hk0 : 0 ≤ N * (k : Int) := by positivity
  have e : (k : Int) * N = N * k := mul_comm _ _
  have e0 : N * ((k + 1 : Nat) : Int) = N * k + N := by push_cast; ring
  obtain ⟨h5, h6⟩ := pieces_isCeilDiv hN (show 0 ≤ v.extent by omega)
  have e1 : ((pieces N v.extent : Int) - 1) * N = (pieces N v.extent : Int) * N - N := by ring
  have e2 : ((pieces N v.extent : Int) - k) * N = (pieces N v.extent : Int) * N - N * k := by ring
  have hcase : (k + 1 = pieces N v.extent ∧ v.extent ≤ N * k + N ∧
        (pieces N v.extent : Int) * N = N * k + N) ∨ N * (k : Int) + N < v.extent := by
    by_cases hl : k + 1 = pieces N v.extent
    · left
      have h3 := le_mul_of_pieces_le hN (show 0 ≤ v.extent by omega) hl.ge
      refine ⟨hl, by omega, ?_⟩
      rw [← hl, mul_comm]; exact e0
    · right
      exact mul_le_of_succ_lt_pieces hN (by omega) (show k + 1 < _ by omega)
  constructor
  · show SplitIt.sub _ ⟨⟨v.min, N⟩, v.max⟩ = _
    unfold SplitIt.sub Interval.max
    simp only
    rw [if_pos hN, Int.tdiv_eq_ediv_of_nonneg (by omega)]
    apply ediv_eq_of_bounds hN <;> omega
  · show SplitIt.sub ⟨⟨v.max + 1, N⟩, v.max⟩ _ = _
    unfold SplitIt.sub Interval.max
    simp only
    rw [if_pos hN, Int.tdiv_eq_ediv_of_nonneg (by omega)]
    apply ediv_eq_of_bounds hN <;> omega

/-- C26: jumping from `begin()` by `size()` lands on `end()` exactly when the first interval's
extent divides the extent (run-time factor). -/
theorem C26_dynamic_begin_add_size (v : Interval) (n : Int) (hn : 0 < n) (hv : 0 < v.extent) :
    let r := splitDynamic v n
    (r.add r.begin_ r.size).eq r.end_ = true ↔ (n ∣ v.extent ∨ v.extent ≤ n) := by
  intro r
  have hsz : r.size = pieces n v.extent := dynSize hn hv.le
  rw [hsz]
  show (SplitIt.addDynamic ⟨⟨v.min, imin n v.extent⟩, v.max⟩ _).eq ⟨⟨v.max + 1, 0⟩, v.max⟩ = true ↔ _
  unfold SplitIt.addDynamic SplitIt.eq Interval.max
  simp only [imin_eq, beq_iff_eq]
  rcases le_total v.extent n with h2 | h2
  · rw [min_eq_right h2, pieces_of_le hv h2]
    simp [h2]
  · rw [min_eq_left h2]
    obtain ⟨h5, h6⟩ := pieces_isCeilDiv hn hv.le
    constructor
    · intro h
      exact Or.inl ⟨(pieces n v.extent : Int), by omega⟩
    · rintro (⟨q, hq⟩ | h)
      · have : (pieces n v.extent : Int) = q := by
          refine IsCeilDiv.unique hn ⟨h5, h6⟩ ⟨?_, ?_⟩
          · have : (q - 1) * n = n * q - n := by ring
            omega
          · rw [mul_comm]; omega
        rw [this]; omega
      · have : v.extent = n := by omega
        rw [pieces_of_le hv h]
        simp; omega

/-- C26: the same for a compile-time factor. -/
theorem C26_static_begin_add_size (v : Interval) (N : Int) (hN : 0 < N) (hv : N ≤ v.extent) :
    let r := splitStatic N v
    (r.add r.begin_ r.size).eq r.end_ = true ↔ N ∣ v.extent := by
  intro r
  have hsz : r.size = pieces N v.extent := statSize hN (by omega)
  rw [hsz]
  obtain ⟨h5, h6⟩ := pieces_isCeilDiv hN (show 0 ≤ v.extent by omega)
  have e : (pieces N v.extent : Int) * N = N * pieces N v.extent := mul_comm _ _
  show (SplitIt.addStatic N ⟨⟨v.min, N⟩, v.max⟩ _).eq ⟨⟨v.max + 1, N⟩, v.max⟩ = true ↔ _
  unfold SplitIt.addStatic SplitIt.eq Interval.max
  simp only
  rw [if_neg (by omega)]
  simp only [beq_iff_eq]
  constructor
  · intro h
    exact ⟨(pieces N v.extent : Int), by omega⟩
  · rintro ⟨q, hq⟩
    have : (pieces N v.extent : Int) = q := by
      refine IsCeilDiv.unique hN ⟨h5, h6⟩ ⟨?_, ?_⟩
      · have : (q - 1) * N = N * q - N := by ring
        omega
      · rw [mul_comm]; omega
    rw [this]; omega

/-- C26, negative part: `begin() + size()` and `end()` differ for the documented example
`split<5>([0, 12))`, so random access loops written as `it != end` starting from a jump run past
the end. -/
theorem C26_begin_add_size_counterexample :
    (let r := splitStatic 5 ⟨0, 12⟩; (r.add r.begin_ r.size).eq r.end_ = false) ∧
    (let r := splitDynamic ⟨0, 12⟩ 5; (r.add r.begin_ r.size).eq r.end_ = false) := by
  decide

/-! ### C27 -/

/-- C27: the result is inside the bounds. -/
theorem C27_in_bounds (x lo hi : Int) (h : lo ≤ hi) : lo ≤ clamp x lo hi ∧ clamp x lo hi ≤ hi := by
  unfold clamp; rw [imin_eq, imax_eq]; omega

/-- C27: it is the point of `[lo, hi]` nearest to `x`; in particular `x` itself if inside. -/
theorem C27_nearest (x lo hi y : Int) (h1 : lo ≤ y) (h2 : y ≤ hi) :
    |x - clamp x lo hi| ≤ |x - y| ∧ (|x - clamp x lo hi| = |x - y| → y = clamp x lo hi) := by
  unfold clamp; rw [imin_eq, imax_eq, abs_eq_max_neg, abs_eq_max_neg]; omega

theorem C27_fixed (x lo hi : Int) (h : lo ≤ hi) : clamp x lo hi = x ↔ lo ≤ x ∧ x ≤ hi := by
  unfold clamp; rw [imin_eq, imax_eq]; omega

theorem C27_monotone (x y lo hi : Int) (h : x ≤ y) : clamp x lo hi ≤ clamp y lo hi := by
  unfold clamp; rw [imin_eq, imax_eq, imin_eq, imax_eq]; omega

theorem C27_idempotent (x lo hi : Int) (h : lo ≤ hi) :
    clamp (clamp x lo hi) lo hi = clamp x lo hi := by
  unfold clamp; rw [imin_eq, imax_eq, imin_eq, imax_eq]; omega

/-- C27: `clamp(x, dim)` (array.h:382-385) lands on an index of a non-empty dim. -/
theorem C27_dim (x : Int) (d : Dim) (h : 0 < d.extent) :
    d.isInRange (clamp x d.min d.max) = true := by
  rw [Dim.isInRange_iff]
  have := C27_in_bounds x d.min d.max (by unfold Dim.max; omega)
  unfold Dim.max at this ⊢
  omega

example : clamp 7 0 5 = 5 ∧ clamp (-3) 0 5 = 0 ∧ clamp 4 0 5 = 4 := by decide

end Nda
