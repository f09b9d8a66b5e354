/-
C47: index arithmetic on 64-bit `index_t` does not overflow.
`s.map Dim64.toDim` are the integers that a 64-bit shape holds; `none` is undefined behaviour.
-/
import Verif.Lemmas.Checked
import Verif.Spec.Checked

namespace Nda

open Spec

theorem zipWith_mapM {α β γ : Type} (f : α → β → Option γ) : ∀ (s : List α) (i : List β),
    (List.zipWith f s i).mapM id = (s.zip i).mapM fun p => f p.1 p.2
  | [], _ => by simp
  | _ :: _, [] => by simp
  | a :: s, b :: i => by simp [List.mapM_cons, zipWith_mapM f s i]

theorem inBox_zip : ∀ {s : List Dim64} {i : List I64}, InBox (s.map Dim64.toDim) (i.map BitVec.toInt) →
    (s.zip i).map Prod.fst = s ∧ (∀ p ∈ s.zip i, p.1.min.toInt ≤ p.2.toInt ∧
      p.2.toInt < p.1.min.toInt + p.1.extent.toInt) ∧
    offsetOf (s.map Dim64.toDim) (i.map BitVec.toInt) =
      ((s.zip i).map fun p => (p.2.toInt - p.1.min.toInt) * p.1.stride.toInt).sum
  | [], [], _ => by simp [offsetOf]
  | [], _ :: _, h => by simp [InBox] at h
  | _ :: _, [], h => by simp [InBox] at h
  | d :: s, x :: i, h => by
    obtain ⟨h0, h⟩ := h
    obtain ⟨h1, h2, h3⟩ := inBox_zip h
    refine ⟨by simp [h1], ?_, ?_⟩
    · intro p hp
      rw [List.zip_cons_cons, List.mem_cons] at hp
      rcases hp with rfl | hp
      · exact h0
      · exact h2 p hp
    · simp only [List.map_cons, List.zip_cons_cons, List.sum_cons, offsetOf, h3]
      rfl

theorem totalSpan_map {s : List Dim64} :
    totalSpan (s.map Dim64.toDim) = (s.map fun d => |d.extent.toInt - 1| * |d.stride.toInt|).sum := by
  unfold totalSpan; rw [List.map_map]; rfl

/-- C47: the flat offset of an in-range index is computed exactly. -/
theorem C47_flat_offset (s : Shape64) (i : List I64)
    (hi : InBox (s.map Dim64.toDim) (i.map BitVec.toInt))
    (hfit : totalSpan (s.map Dim64.toDim) ≤ 9223372036854775807) :
    ∃ r, s.flatOffset i = some r ∧ r.toInt = offsetOf (s.map Dim64.toDim) (i.map BitVec.toInt) := by
  obtain ⟨h1, h2, h3⟩ := inBox_zip hi
  unfold Shape64.flatOffset
  rw [zipWith_mapM, h3]
  have hb : ∀ p ∈ s.zip i, |(p.2.toInt - p.1.min.toInt) * p.1.stride.toInt| ≤
      |p.1.extent.toInt - 1| * |p.1.stride.toInt| := by
    intro p hp
    obtain ⟨ha, hb⟩ := h2 p hp
    rw [abs_mul]
    apply mul_le_mul_of_nonneg_right _ (abs_nonneg _)
    rw [abs_of_nonneg (by omega), abs_of_nonneg (by omega)]
    omega
  have hsum : ((s.zip i).map fun p => |p.1.extent.toInt - 1| * |p.1.stride.toInt|).sum ≤ 9223372036854775807 := by
    rw [totalSpan_map] at hfit
    conv at hfit => rw [← h1]
    rw [List.map_map] at hfit
    exact hfit
  refine sum_pack_val (s.zip i) (fun p => p.1.flatOffset p.2) _ _ ?_ hb hsum
  intro p hp
  obtain ⟨ha, hc⟩ := h2 p hp
  have hx := fit64_toInt p.1.extent
  unfold Fit64 at hx
  refine Val.bind (csub_val rfl rfl (by unfold Fit64; omega)) fun t ht => cmul_val ht rfl ?_
  refine fit64_of_abs (hb p hp) (le_trans (le_sum_of_mem (b := fun p : Dim64 × I64 =>
    |p.1.extent.toInt - 1| * |p.1.stride.toInt|) (fun q _ => by positivity) hp) hsum)

theorem flatEnd_val (s : Shape64) (g : I64 → I64) (k : Int → Int) (hg : ∀ x, (g x).toInt = k x.toInt)
    (hk : ∀ x, |k x| ≤ |x|) (hn : NonNeg (s.map Dim64.toDim))
    (hfit : totalSpan (s.map Dim64.toDim) ≤ 9223372036854775807) :
    Val ((List.mapM (fun d : Dim64 => do
      let t ← csub d.extent 1#64
      cmul t (g d.stride)) s) >>= sum64)
      (s.map fun d => (d.extent.toInt - 1) * k d.stride.toInt).sum := by
  have hb : ∀ d ∈ s, |(d.extent.toInt - 1) * k d.stride.toInt| ≤ |d.extent.toInt - 1| * |d.stride.toInt| := by
    intro d _
    rw [abs_mul]
    exact mul_le_mul_of_nonneg_left (hk _) (abs_nonneg _)
  rw [totalSpan_map] at hfit
  refine sum_pack_val s _ _ _ ?_ hb hfit
  intro d hd
  have hx := fit64_toInt d.extent
  have h0 : 0 ≤ d.extent.toInt := hn _ (List.mem_map_of_mem hd)
  unfold Fit64 at hx
  refine Val.bind (csub_val (n := 1) rfl rfl (by unfold Fit64; omega)) fun t ht => cmul_val ht (hg _) ?_
  exact fit64_of_abs (hb d hd) (le_trans (le_sum_of_mem (b := fun d : Dim64 =>
    |d.extent.toInt - 1| * |d.stride.toInt|) (fun q _ => by positivity) hd) hfit)

/-- C47: `flat_min()` and `flat_max()` are computed exactly. -/
theorem C47_flat_min (s : Shape64) (hn : NonNeg (s.map Dim64.toDim))
    (hfit : totalSpan (s.map Dim64.toDim) ≤ 9223372036854775807) :
    ∃ r, s.flatMin = some r ∧ r.toInt = Shape.flatMin (s.map Dim64.toDim) := by
  have := flatEnd_val s (min64 0#64) (min 0) (fun x => by rw [min64_toInt]; rfl) (fun x => by
    rcases le_total 0 x with h | h
    · rw [min_eq_left h]; simp
    · rw [min_eq_right h]) hn hfit
  rw [flatMin_eq, List.map_map]
  exact this

theorem C47_flat_max (s : Shape64) (hn : NonNeg (s.map Dim64.toDim))
    (hfit : totalSpan (s.map Dim64.toDim) ≤ 9223372036854775807) :
    ∃ r, s.flatMax = some r ∧ r.toInt = Shape.flatMax (s.map Dim64.toDim) := by
  have := flatEnd_val s (max64 0#64) (max 0) (fun x => by rw [max64_toInt]; rfl) (fun x => by
    rcases le_total 0 x with h | h
    · rw [max_eq_right h]
    · rw [max_eq_left h]; simp) hn hfit
  rw [flatMax_eq, List.map_map]
  exact this

/-- C47: for a shape with at least one index these are the least and the largest flat offset of an
in-range index. -/
theorem C47_flat_range (s : Shape64) (hn : Pos (s.map Dim64.toDim))
    (hfit : totalSpan (s.map Dim64.toDim) ≤ 9223372036854775807) :
    ∃ lo hi, s.flatMin = some lo ∧ s.flatMax = some hi ∧
      (∃ i, InBox (s.map Dim64.toDim) i ∧ offsetOf (s.map Dim64.toDim) i = lo.toInt) ∧
      (∃ i, InBox (s.map Dim64.toDim) i ∧ offsetOf (s.map Dim64.toDim) i = hi.toInt) ∧
      ∀ i, InBox (s.map Dim64.toDim) i →
        lo.toInt ≤ offsetOf (s.map Dim64.toDim) i ∧ offsetOf (s.map Dim64.toDim) i ≤ hi.toInt := by
  obtain ⟨lo, h1, h2⟩ := C47_flat_min s hn.nonNeg hfit
  obtain ⟨hi, h3, h4⟩ := C47_flat_max s hn.nonNeg hfit
  refine ⟨lo, hi, h1, h3, ?_, ?_, ?_⟩
  · rw [h2]; exact exists_flatMin hn
  · rw [h4]; exact exists_flatMax hn
  · intro i hI; rw [h2, h4]; exact offsetOf_bounds hI

/-- The difference of the two. -/
theorem flatMax_sub_flatMin (s : List Dim) :
    Shape.flatMax s - Shape.flatMin s = (s.map fun d => (d.extent - 1) * |d.stride|).sum := by
  induction s with
  | nil => simp
  | cons d s ih =>
    rw [flatMax_cons, flatMin_cons, List.map_cons, List.sum_cons, ← ih]
    have : |d.stride| = max 0 d.stride - min 0 d.stride := by
      rcases le_total 0 d.stride with h | h
      · rw [abs_of_nonneg h, max_eq_right h, min_eq_left h]; ring
      · rw [abs_of_nonpos h, max_eq_left h, min_eq_right h]; ring
    rw [this]; ring

theorem toNat_of_val {r : I64} (f : Nat) (n : Int) (h : r.toInt = n) (hf : f = if n < 0 then 0 else n.toNat) :
    (if r.slt 0#64 then 0 else r.toNat) = f := by
  rw [hf]
  by_cases hn : n < 0
  · rw [if_pos hn, if_pos]
    rw [BitVec.slt_iff_toInt_lt, h]; exact hn
  · rw [if_neg hn, if_neg]
    · rw [← h, BitVec.toInt_eq_toNat_cond] at *
      have := r.isLt
      split at hn <;> omega
    · rw [BitVec.slt_iff_toInt_lt, h]; exact hn

/-- C47: `flat_extent()` is computed exactly if the total span is below the largest `index_t`. -/
theorem C47_flat_extent (s : Shape64) (hn : NonNeg (s.map Dim64.toDim))
    (hfit : totalSpan (s.map Dim64.toDim) < 9223372036854775807) :
    s.flatExtent = some (Shape.flatExtent (s.map Dim64.toDim)) := by
  obtain ⟨lo, h1, h2⟩ := C47_flat_min s hn (by omega)
  obtain ⟨hi, h3, h4⟩ := C47_flat_max s hn (by omega)
  have hd := flatMax_sub_flatMin (s.map Dim64.toDim)
  have hle : |Shape.flatMax (s.map Dim64.toDim) - Shape.flatMin (s.map Dim64.toDim)| ≤
      totalSpan (s.map Dim64.toDim) := by
    rw [hd]
    refine le_trans (abs_sum_le _) ?_
    unfold totalSpan
    rw [List.map_map]
    apply List.sum_le_sum
    intro d _
    show |(d.extent - 1) * abs d.stride| ≤ _
    rw [abs_mul, abs_abs]
  have hle' := le_abs_self (Shape.flatMax (s.map Dim64.toDim) - Shape.flatMin (s.map Dim64.toDim))
  have hle'' := neg_abs_le (Shape.flatMax (s.map Dim64.toDim) - Shape.flatMin (s.map Dim64.toDim))
  obtain ⟨t, ht, ht'⟩ := csub_val h4 h2 (by unfold Fit64; omega)
  obtain ⟨e, he, he'⟩ := cadd_val (b := 1#64) (n := 1) ht' rfl (by unfold Fit64; omega)
  unfold Shape64.flatExtent
  rw [h3, h1]
  simp only [bind, Option.bind]
  rw [ht]
  simp only
  rw [he]
  simp only [Option.some.injEq]
  exact toNat_of_val _ _ he' rfl

theorem product64_val : ∀ xs : List I64, (∀ x ∈ xs, 0 < x.toInt) →
    (xs.map BitVec.toInt).prod ≤ 9223372036854775807 → Val (product64 xs) (xs.map BitVec.toInt).prod ∧
      0 < (xs.map BitVec.toInt).prod
  | [], _, _ => ⟨⟨_, rfl, rfl⟩, by simp⟩
  | x :: xs, h, hf => by
    rw [List.map_cons, List.prod_cons] at hf ⊢
    have hx := h x List.mem_cons_self
    have hp : ∀ ys : List Int, (∀ y ∈ ys, 0 < y) → 0 < ys.prod := by
      intro ys
      induction ys with
      | nil => simp
      | cons y ys ih =>
        intro h
        rw [List.prod_cons]
        exact mul_pos (h y List.mem_cons_self) (ih fun z hz => h z (List.mem_cons_of_mem _ hz))
    have hp := hp (xs.map BitVec.toInt) (by
      intro y hy
      obtain ⟨z, hz, rfl⟩ := List.mem_map.1 hy
      exact h z (List.mem_cons_of_mem _ hz))
    obtain ⟨ih, -⟩ := product64_val xs (fun y hy => h y (List.mem_cons_of_mem _ hy)) (by nlinarith)
    have hpos := mul_pos hx hp
    exact ⟨Val.bind ih fun r hr => cmul_val rfl hr (by unfold Fit64; omega), hpos⟩

/-- C47: `size()` is computed exactly if there is at least one index and the number of indices is an
`index_t`. -/
theorem C47_size (s : Shape64) (hp : Pos (s.map Dim64.toDim))
    (hfit : ((s.map Dim64.toDim).map Dim.extent).prod ≤ 9223372036854775807) :
    ∃ n, s.size = some n ∧ (n : Int) = ((s.map Dim64.toDim).map Dim.extent).prod := by
  have e : (s.map Dim64.toDim).map Dim.extent = (s.map Dim64.extent).map BitVec.toInt := by
    simp only [List.map_map]; rfl
  rw [e] at hfit ⊢
  obtain ⟨⟨r, h1, h2⟩, h3⟩ := product64_val (s.map Dim64.extent) (by
    intro x hx
    obtain ⟨d, hd, rfl⟩ := List.mem_map.1 hx
    exact hp _ (List.mem_map_of_mem hd)) hfit
  refine ⟨_, by unfold Shape64.size; rw [h1]; rfl, ?_⟩
  rw [toNat_of_val _ _ h2 rfl]
  split <;> omega

/-- C47: `max()`, `end()` and `is_in_range` are computed exactly if `min + extent` is an `index_t`. -/
theorem C47_max (d : Dim64)
    (hfit : d.min.toInt + d.extent.toInt ≤ 9223372036854775807)
    (hlo : -9223372036854775808 < d.min.toInt + d.extent.toInt) :
    (∃ r, d.max = some r ∧ r.toInt = d.min.toInt + d.extent.toInt - 1) ∧
    (∃ r, d.end_ = some r ∧ r.toInt = d.min.toInt + d.extent.toInt) ∧
    ∀ x, ∃ b, d.isInRange x = some b ∧
      (b = true ↔ d.min.toInt ≤ x.toInt ∧ x.toInt < d.min.toInt + d.extent.toInt) := by
  have hmax : Val d.max (d.min.toInt + d.extent.toInt - 1) :=
    Val.bind (cadd_val rfl rfl (by unfold Fit64; omega)) fun r hr =>
      csub_val (n := 1) hr rfl (by unfold Fit64; omega)
  have hend : Val d.end_ (d.min.toInt + d.extent.toInt - 1 + 1) :=
    Val.bind hmax fun r hr => cadd_val (n := 1) hr rfl (by unfold Fit64; omega)
  rw [sub_add_cancel] at hend
  refine ⟨hmax, hend, fun x => ?_⟩
  obtain ⟨m, h1, h2⟩ := hmax
  unfold Dim64.isInRange
  by_cases h : d.min.sle x = true
  · rw [if_pos h, h1]
    refine ⟨_, rfl, ?_⟩
    rw [BitVec.sle_iff_toInt_le] at h ⊢
    rw [h2]
    omega
  · rw [if_neg h]
    refine ⟨_, rfl, ?_⟩
    rw [BitVec.sle_iff_toInt_le] at h
    simp [h]

/-- C47: `shape::is_in_range` of a shape all of whose dims end at an `index_t` is computed exactly. -/
theorem C47_in_range (s : Shape64) (i : List I64) (hl : i.length = s.length)
    (hfit : ∀ d ∈ s, d.min.toInt + d.extent.toInt ≤ 9223372036854775807)
    (hlo : ∀ d ∈ s, -9223372036854775808 < d.min.toInt + d.extent.toInt) :
    ∃ b, s.isInRange i = some b ∧ (b = true ↔ InBox (s.map Dim64.toDim) (i.map BitVec.toInt)) := by
  have key : ∀ (s : List Dim64) (i : List I64), i.length = s.length →
      (∀ d ∈ s, d.min.toInt + d.extent.toInt ≤ 9223372036854775807 ∧
        -9223372036854775808 < d.min.toInt + d.extent.toInt) →
      ∃ bs, (List.zipWith Dim64.isInRange s i).mapM id = some bs ∧
        ((∀ b ∈ bs, b = true) ↔ InBox (s.map Dim64.toDim) (i.map BitVec.toInt)) := by
    intro s
    induction s with
    | nil =>
      intro i hl _
      have : i = [] := List.eq_nil_of_length_eq_zero hl
      subst this
      exact ⟨[], rfl, by simp [InBox]⟩
    | cons d s ih =>
      intro i hl h
      cases i with
      | nil => simp at hl
      | cons x i =>
        obtain ⟨bs, h1, h2⟩ := ih i (by simpa using hl) fun d hd => h d (List.mem_cons_of_mem _ hd)
        obtain ⟨h4, h5⟩ := h d List.mem_cons_self
        obtain ⟨b, h6, h7⟩ := (C47_max d h4 h5).2.2 x
        refine ⟨b :: bs, ?_, ?_⟩
        · simp [List.mapM_cons, h6, h1]
        · rw [List.map_cons, List.map_cons, List.forall_mem_cons, h2, h7]
          rfl
  obtain ⟨bs, h1, h2⟩ := key s i hl fun d hd => ⟨hfit d hd, hlo d hd⟩
  refine ⟨_, by unfold Shape64.isInRange; rw [h1]; rfl, ?_⟩
  rw [all_iff]
  exact h2

/-- C47: automatic strides are computed without overflow if the largest known span times the extents
of the unknown dims fits (`FitsIndex`), and are those of the unbounded computation, about which
C04-C07 speak. -/
theorem C47_resolve (s : Shape64) (hn : NonNeg (s.map Dim64.toDim)) (hf : FitsIndex (s.map Dim64.toDim)) :
    ∃ r, s.resolve = some r ∧ r.map Dim64.toDim = Shape.resolve (s.map Dim64.toDim) :=
  resolveLoop64_eq s [] hn hf

/-- `size()` of an empty shape can overflow: the extents (0, 2^40, 2^40), although no index is in range
and the size is zero. -/
theorem C47_empty_size_counterexample : ∃ s : Shape64, NonNeg (s.map Dim64.toDim) ∧
    Shape.size (s.map Dim64.toDim) = 0 ∧ s.size = none :=
  ⟨[⟨0#64, 0#64, 1#64⟩, ⟨0#64, 0x10000000000#64, 1#64⟩, ⟨0#64, 0x10000000000#64, 1#64⟩],
    by simp [NonNeg, Dim64.toDim], by decide, by decide⟩

/-- `max()` overflows for the one-element interval at the largest `index_t`, whose last index is an
`index_t`. -/
theorem C47_max_counterexample : ∃ d : Dim64, 0 < d.extent.toInt ∧
    d.min.toInt + d.extent.toInt - 1 = 9223372036854775807 ∧ d.max = none :=
  ⟨⟨0x7fffffffffffffff#64, 1#64, 1#64⟩, by decide, by decide, by decide⟩

/-- `flat_extent()` overflows for a total span of exactly the largest `index_t`. -/
theorem C47_flat_extent_counterexample : ∃ s : Shape64, Pos (s.map Dim64.toDim) ∧
    totalSpan (s.map Dim64.toDim) = 9223372036854775807 ∧ s.flatExtent = none :=
  ⟨[⟨0#64, 2#64, 0x7fffffffffffffff#64⟩], by simp [Pos, Dim64.toDim], by decide, by decide⟩

/-- The flat offset of the last index in a shape that nearly fills the address space. -/
example : Shape64.flatOffset [⟨-3#64, 5#64, -2#64⟩, ⟨0#64, 0x40000000#64, 0x100000000#64⟩]
    [1#64, 0x3fffffff#64] = some (0x3fffffff00000000#64 - 8#64) := by decide
example : ∃ r, Shape64.flatOffset [⟨-3#64, 5#64, -2#64⟩, ⟨0#64, 0x40000000#64, 0x100000000#64⟩]
    [1#64, 0x3fffffff#64] = some r ∧ r.toInt = 0x3fffffff00000000 - 8 :=
  C47_flat_offset _ _ (by simp [InBox, Dim64.toDim]) (by decide)
/-- An out-of-range index can overflow. -/
example : Shape64.flatOffset [⟨-3#64, 5#64, 4#64⟩] [0x7fffffffffffffff#64] = none := by decide
example : Shape64.resolve [⟨0#64, 3#64, BitVec.intMin 64⟩, ⟨2#64, 9#64, BitVec.intMin 64⟩] =
    some [⟨0#64, 3#64, 1#64⟩, ⟨2#64, 9#64, 3#64⟩] := by decide

end Nda
