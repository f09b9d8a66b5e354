/-
Lemmas relating the 64-bit evaluation of Model/Checked.lean to unbounded integers.
-/
import Mathlib.Tactic.Ring
import Mathlib.Tactic.Linarith
import Mathlib.Tactic.Positivity
import Verif.Model.Checked
import Verif.Lemmas.Basic
import Verif.Lemmas.Flat
import Verif.Lemmas.Rational
import Verif.Lemmas.Resolve
import Verif.Lemmas.Nested

namespace Nda

open Spec

/-- `x` is evaluated without overflow and is the integer `n`. -/
def Val (x : Option I64) (n : Int) : Prop := ∃ r, x = some r ∧ r.toInt = n

theorem Val.pure (r : I64) : Val (some r) r.toInt := ⟨r, rfl, rfl⟩

theorem Val.bind {x : Option I64} {f : I64 → Option I64} {a b : Int} (h : Val x a)
    (hf : ∀ r, r.toInt = a → Val (f r) b) : Val (x >>= f) b := by
  obtain ⟨r, rfl, h⟩ := h
  exact hf r h

/-- Representable in 64 bits. -/
def Fit64 (n : Int) : Prop := -9223372036854775808 ≤ n ∧ n ≤ 9223372036854775807

theorem fit64_iff (n : Int) : Fit64 n ↔ Fit 64 n := by
  unfold Fit64 Fit
  norm_num
  intro _
  omega

theorem fit64_toInt (x : I64) : Fit64 x.toInt := (fit64_iff _).2 (fit_toInt x)

theorem cadd_val {a b : I64} {m n : Int} (ha : a.toInt = m) (hb : b.toInt = n) (h : Fit64 (m + n)) :
    Val (cadd a b) (m + n) := by
  subst ha hb
  exact ⟨_, cadd_some ((fit64_iff _).1 h)⟩

theorem csub_val {a b : I64} {m n : Int} (ha : a.toInt = m) (hb : b.toInt = n) (h : Fit64 (m - n)) :
    Val (csub a b) (m - n) := by
  subst ha hb
  exact ⟨_, csub_some ((fit64_iff _).1 h)⟩

theorem cmul_val {a b : I64} {m n : Int} (ha : a.toInt = m) (hb : b.toInt = n) (h : Fit64 (m * n)) :
    Val (cmul a b) (m * n) := by
  subst ha hb
  exact ⟨_, cmul_some ((fit64_iff _).1 h)⟩

theorem min64_toInt (a b : I64) : (min64 a b).toInt = min a.toInt b.toInt := by
  unfold min64
  split
  · rename_i h; rw [BitVec.slt_iff_toInt_lt] at h; omega
  · rename_i h; rw [BitVec.slt_iff_toInt_lt] at h; omega

theorem max64_toInt (a b : I64) : (max64 a b).toInt = max a.toInt b.toInt := by
  unfold max64
  split
  · rename_i h; rw [BitVec.slt_iff_toInt_lt] at h; omega
  · rename_i h; rw [BitVec.slt_iff_toInt_lt] at h; omega

theorem abs64_val {x : I64} (h : x.toInt ≠ -9223372036854775808) : Val (abs64 x) |x.toInt| := by
  unfold abs64
  split
  · rename_i hs
    rw [BitVec.sle_iff_toInt_le] at hs
    simp only [BitVec.toInt_zero] at hs
    exact ⟨x, rfl, (abs_of_nonneg hs).symm⟩
  · rename_i hs
    rw [BitVec.sle_iff_toInt_le] at hs
    simp only [BitVec.toInt_zero] at hs
    have := csub_val (a := 0#64) (b := x) (m := 0) rfl rfl (by
      have := fit64_toInt x
      unfold Fit64 at *; omega)
    rw [abs_of_neg (by omega)]
    simpa using this

/-- The sum of the absolute values bounds every partial sum. -/
theorem abs_sum_le (l : List Int) : |l.sum| ≤ (l.map fun x => |x|).sum := by
  induction l with
  | nil => simp
  | cons x l ih =>
    simp only [List.sum_cons, List.map_cons]
    have := abs_add_le x l.sum
    omega

theorem sum_abs_nonneg (l : List Int) : 0 ≤ (l.map fun x => |x|).sum := by
  have := abs_sum_le l
  have := abs_nonneg l.sum
  omega

theorem fit64_of_abs {n m : Int} (h : |n| ≤ m) (hm : m ≤ 9223372036854775807) : Fit64 n := by
  have := neg_abs_le n
  have := le_abs_self n
  unfold Fit64; omega

theorem sum64_val : ∀ (xs : List I64),
    (List.map (fun x => |x|) (List.map BitVec.toInt xs)).sum ≤ 9223372036854775807 →
    Val (sum64 xs) (List.map BitVec.toInt xs).sum
  | [], _ => ⟨_, rfl, by simp⟩
  | [x0], _ => ⟨_, rfl, by simp⟩
  | [x0, x1], h => by
    simp only [List.map_cons, List.map_nil, List.sum_cons, List.sum_nil, add_zero] at h ⊢
    exact cadd_val rfl rfl (fit64_of_abs (abs_add_le _ _) h)
  | [x0, x1, x2], h => by
    simp only [List.map_cons, List.map_nil, List.sum_cons, List.sum_nil, add_zero] at h ⊢
    have a1 := abs_add_le x0.toInt x1.toInt
    have a2 := abs_add_le (x0.toInt + x1.toInt) x2.toInt
    have a3 := abs_nonneg x2.toInt
    rw [← add_assoc]
    exact Val.bind (cadd_val rfl rfl (fit64_of_abs (le_refl _) (by omega))) fun r hr =>
      cadd_val hr rfl (fit64_of_abs (le_refl _) (by omega))
  | x0 :: x1 :: x2 :: x3 :: rest, h => by
    simp only [List.map_cons, List.sum_cons] at h ⊢
    have hr0 := sum_abs_nonneg (rest.map BitVec.toInt)
    have hr1 := abs_sum_le (rest.map BitVec.toInt)
    have p0 := abs_nonneg x0.toInt
    have p1 := abs_nonneg x1.toInt
    have p2 := abs_nonneg x2.toInt
    have p3 := abs_nonneg x3.toInt
    have ih := sum64_val rest (by omega)
    have e : x0.toInt + (x1.toInt + (x2.toInt + (x3.toInt + (List.map BitVec.toInt rest).sum))) =
        x0.toInt + x1.toInt + x2.toInt + x3.toInt + (List.map BitVec.toInt rest).sum := by ring
    rw [e]
    generalize (List.map (fun x => |x|) (List.map BitVec.toInt rest)).sum = T at *
    generalize (List.map BitVec.toInt rest).sum = S at *
    have a1 := abs_add_le x0.toInt x1.toInt
    have a2 := abs_add_le (x0.toInt + x1.toInt) x2.toInt
    have a3 := abs_add_le (x0.toInt + x1.toInt + x2.toInt) x3.toInt
    have a4 := abs_add_le (x0.toInt + x1.toInt + x2.toInt + x3.toInt) S
    exact Val.bind (cadd_val rfl rfl (fit64_of_abs (le_refl _) (by omega))) fun a ha =>
      Val.bind (cadd_val ha rfl (fit64_of_abs (le_refl _) (by omega))) fun b hb =>
      Val.bind (cadd_val hb rfl (fit64_of_abs (le_refl _) (by omega))) fun c hc =>
      Val.bind ih fun r hr => cadd_val hc hr (fit64_of_abs (le_refl _) (by omega))

/-- Evaluating the arguments of a variadic call. -/
theorem mapM_val {α : Type} (l : List α) (f : α → Option I64) (g : α → Int)
    (h : ∀ a ∈ l, Val (f a) (g a)) :
    ∃ xs, l.mapM f = some xs ∧ xs.map BitVec.toInt = l.map g := by
  induction l with
  | nil => exact ⟨[], rfl, rfl⟩
  | cons a l ih =>
    obtain ⟨xs, h1, h2⟩ := ih fun b hb => h b (List.mem_cons_of_mem _ hb)
    obtain ⟨r, hr, hr'⟩ := h a List.mem_cons_self
    exact ⟨r :: xs, by simp [List.mapM_cons, hr, h1], by simp [hr', h2]⟩

theorem mapM_bool {α : Type} (l : List α) (f : α → Option Bool) (g : α → Bool)
    (h : ∀ a ∈ l, f a = some (g a)) : l.mapM f = some (l.map g) := by
  induction l with
  | nil => rfl
  | cons a l ih =>
    simp [List.mapM_cons, h a List.mem_cons_self, ih fun b hb => h b (List.mem_cons_of_mem _ hb)]

/-- Sum over a variadic pack, each term bounded by its share of the budget. -/
theorem sum_pack_val {α : Type} (l : List α) (f : α → Option I64) (g b : α → Int)
    (h : ∀ a ∈ l, Val (f a) (g a)) (hb : ∀ a ∈ l, |g a| ≤ b a)
    (hfit : (l.map b).sum ≤ 9223372036854775807) :
    Val (l.mapM f >>= sum64) (l.map g).sum := by
  obtain ⟨xs, h1, h2⟩ := mapM_val l f g h
  rw [h1, ← h2]
  apply sum64_val
  rw [h2, List.map_map]
  refine le_trans ?_ hfit
  exact List.sum_le_sum fun a ha => hb a ha

theorem le_sum_of_mem {α : Type} {l : List α} {b : α → Int} (h0 : ∀ a ∈ l, 0 ≤ b a) {a : α} (ha : a ∈ l) :
    b a ≤ (l.map b).sum := by
  induction l with
  | nil => simp at ha
  | cons x l ih =>
    simp only [List.map_cons, List.sum_cons]
    have hx := h0 x List.mem_cons_self
    have hl : 0 ≤ (l.map b).sum := List.sum_nonneg (by
      intro y hy
      obtain ⟨z, hz, rfl⟩ := List.mem_map.1 hy
      exact h0 z (List.mem_cons_of_mem _ hz))
    rcases List.mem_cons.1 ha with rfl | ha
    · omega
    · have := ih (fun y hy => h0 y (List.mem_cons_of_mem _ hy)) ha
      omega

/-! ### Automatic strides -/

theorem isUnresolved64_eq (x : I64) : isUnresolved64 x = isUnresolved x.toInt := by
  unfold isUnresolved64 isUnresolved unresolved
  rw [Bool.eq_iff_iff, beq_iff_eq, beq_iff_eq]
  constructor
  · rintro rfl; rfl
  · intro h; apply BitVec.eq_of_toInt_eq; rw [h]; rfl

theorem indexMax64_toInt : indexMax64.toInt = indexMax := rfl

theorem isStrideOk64_eq {st e : I64} {d : Dim64} (h1 : 1 ≤ st.toInt) (he : 0 ≤ e.toInt)
    (hk : Known d.toDim → 0 ≤ d.extent.toInt ∧ Fit64 (span d.toDim) ∧
      (span d.toDim ≤ st.toInt ∨ Fit64 (e.toInt * st.toInt))) :
    isStrideOk64 st e d = some (isStrideOk st.toInt e.toInt d.toDim) := by
  unfold isStrideOk64 isStrideOk
  rw [isUnresolved64_eq]
  show (if isUnresolved d.toDim.stride then _ else _) = _
  by_cases hu : isUnresolved d.toDim.stride = true
  · rw [if_pos hu, if_pos hu]
  rw [if_neg hu, if_neg hu]
  have hkn : Known d.toDim := (isUnresolved_false_iff d.toDim).1 (by simpa using hu)
  obtain ⟨hext, hfs, hor⟩ := hk hkn
  have hs0 : d.stride.toInt ≠ -9223372036854775808 := hkn
  obtain ⟨a, ha, ha'⟩ := abs64_val (x := st) (by omega)
  obtain ⟨b, hb, hb'⟩ := abs64_val (x := d.stride) hs0
  have hone : (e = 1#64) ↔ e.toInt = 1 := by
    constructor
    · rintro rfl; rfl
    · intro h; apply BitVec.eq_of_toInt_eq; rw [h]; rfl
  have hfirst : repeatsStride64 st e d = some (decide (e.toInt = 1 ∧ iabs st.toInt = iabs d.toDim.stride ∧ d.toDim.extent > 1)) := by
    unfold repeatsStride64
    by_cases h : e = 1#64
    · rw [if_pos h, ha, hb]
      simp only [bind, Option.bind, Option.some.injEq]
      rw [Bool.eq_iff_iff]
      simp only [Bool.and_eq_true, decide_eq_true_eq, BitVec.slt_iff_toInt_lt, iabs_eq]
      have : (a = b) ↔ |st.toInt| = |d.toDim.stride| := by
        rw [← BitVec.toInt_inj, ha', hb']; rfl
      rw [this]
      have e1 : (1#64).toInt = 1 := rfl
      rw [e1]
      show _ ∧ 1 < d.toDim.extent ↔ _
      exact ⟨fun hh => ⟨hone.1 h, hh.1, hh.2⟩, fun hh => ⟨hh.2.1, hh.2.2⟩⟩
    · rw [if_neg h]
      have : ¬ e.toInt = 1 := fun hh => h (hone.2 hh)
      simp [this]
  rw [hfirst]
  simp only [bind, Option.bind]
  by_cases hf : e.toInt = 1 ∧ iabs st.toInt = iabs d.toDim.stride ∧ d.toDim.extent > 1
  · rw [if_pos hf, if_pos (by simpa using hf)]
  rw [if_neg hf, if_neg (by simpa using hf)]
  unfold separate64
  rw [hb]
  simp only [bind, Option.bind]
  obtain ⟨t, ht, ht'⟩ := cmul_val (a := d.extent) (b := b) rfl hb' (by
    unfold span Dim64.toDim at hfs; exact hfs)
  rw [ht]
  simp only [BitVec.sle_iff_toInt_le, ht']
  rw [iabs_eq]
  show (if span d.toDim ≤ _ then _ else _) = some (if span d.toDim ≤ _ then _ else _)
  by_cases hle : span d.toDim ≤ st.toInt
  · rw [if_pos hle, if_pos hle]
  rw [if_neg hle, if_neg hle]
  obtain ⟨f, hf1, hf2⟩ := cmul_val (a := e) (b := st) rfl rfl (by
    rcases hor with h | h
    · exact absurd h hle
    · exact h)
  rw [hf1]
  simp only [Option.some.injEq]
  rw [Bool.eq_iff_iff, BitVec.sle_iff_toInt_le, hf2, hb']
  show _ ≤ |d.toDim.stride| ↔ _
  by_cases hge : e.toInt * st.toInt ≤ |d.toDim.stride|
  · rw [if_pos hge]; simpa using hge
  · rw [if_neg hge]; simpa using hge

theorem filterStride64_eq {st e : I64} {dims : List Dim64} (h1 : 1 ≤ st.toInt) (he : 0 ≤ e.toInt)
    (hk : ∀ d ∈ dims, Known d.toDim → 0 ≤ d.extent.toInt ∧ Fit64 (span d.toDim) ∧
      (span d.toDim ≤ st.toInt ∨ Fit64 (e.toInt * st.toInt))) :
    Val (filterStride64 st e dims) (filterStride st.toInt e.toInt (dims.map Dim64.toDim)) := by
  unfold filterStride64 filterStride
  rw [mapM_bool dims _ (fun d => isStrideOk st.toInt e.toInt d.toDim)
    fun d hd => isStrideOk64_eq h1 he (hk d hd)]
  refine ⟨_, rfl, ?_⟩
  rw [List.map_map]
  simp only [Function.comp_def]
  split
  · rfl
  · rfl

theorem variadicMin64_toInt (l : List I64) : (variadicMin64 l).toInt = variadicMin (l.map BitVec.toInt) := by
  induction l with
  | nil => rfl
  | cons x l ih => rw [variadicMin64, min64_toInt, List.map_cons, variadicMin_cons, ih]

theorem findStride64_val {e : I64} {dims : List Dim64} {B : Int} (he : 0 ≤ e.toInt) (hB : 1 ≤ B)
    (hn : NonNeg (dims.map Dim64.toDim))
    (hspan : ∀ d ∈ dims.map Dim64.toDim, Known d → span d ≤ B)
    (hfit : B * max 1 e.toInt ≤ 9223372036854775807) :
    Val (findStride64 e dims) (findStride e.toInt (dims.map Dim64.toDim)) := by
  have hm1 : 1 ≤ max 1 e.toInt := le_max_left _ _
  have hme : e.toInt ≤ max 1 e.toInt := le_max_right _ _
  have hBm : B ≤ 9223372036854775807 := by nlinarith
  have hs : ∀ d ∈ dims, Known d.toDim → 0 ≤ d.extent.toInt ∧ 0 ≤ span d.toDim ∧ span d.toDim ≤ B := by
    intro d hd hk
    have h0 := hn _ (List.mem_map_of_mem hd)
    refine ⟨h0, ?_, hspan _ (List.mem_map_of_mem hd) hk⟩
    unfold span
    exact mul_nonneg h0 (abs_nonneg _)
  have hcand : ∀ c : I64, 1 ≤ c.toInt → (c.toInt ≤ B ∨ c.toInt = indexMax) →
      Val (filterStride64 c e dims) (filterStride c.toInt e.toInt (dims.map Dim64.toDim)) := by
    intro c hc hor
    apply filterStride64_eq hc he
    intro d hd hk
    obtain ⟨h1, h2, h3⟩ := hs d hd hk
    refine ⟨h1, by unfold Fit64; omega, ?_⟩
    rcases hor with h | h
    · right
      have : e.toInt * c.toInt ≤ B * max 1 e.toInt := by nlinarith
      have : 0 ≤ e.toInt * c.toInt := by positivity
      unfold Fit64; omega
    · left; rw [h]; unfold indexMax; omega
  unfold findStride64 findStride
  obtain ⟨a, ha, ha'⟩ := hcand 1#64 (by decide) (Or.inl hB)
  obtain ⟨bs, hbs, hbs'⟩ := mapM_val dims (fun d => do
      let c ← candidateStride64 d
      filterStride64 c e dims)
    (fun d => filterStride (candidateStride d.toDim) e.toInt (dims.map Dim64.toDim)) (by
    intro d hd
    have hc : Val (candidateStride64 d) (candidateStride d.toDim) ∧ 1 ≤ candidateStride d.toDim ∧
        (candidateStride d.toDim ≤ B ∨ candidateStride d.toDim = indexMax) := by
      unfold candidateStride64 candidateStride
      rw [isUnresolved64_eq]
      show Val (if isUnresolved d.toDim.stride then _ else _) _ ∧ _
      by_cases hu : isUnresolved d.toDim.stride = true
      · rw [if_pos hu, if_pos hu]
        exact ⟨⟨_, rfl, rfl⟩, by decide, Or.inr rfl⟩
      · rw [if_neg hu, if_neg hu]
        have hkn : Known d.toDim := (isUnresolved_false_iff d.toDim).1 (by simpa using hu)
        obtain ⟨h1, h2, h3⟩ := hs d hd hkn
        have h4 : |d.toDim.stride| * d.toDim.extent = span d.toDim := by unfold span; ring
        rw [imax_eq, iabs_eq, h4]
        refine ⟨Val.bind (abs64_val hkn) fun r hr =>
          Val.bind (cmul_val hr rfl ?_) fun t ht => ⟨_, rfl, ?_⟩, le_max_left _ _, Or.inl ?_⟩
        · change Fit64 (|d.toDim.stride| * d.toDim.extent)
          rw [h4]; unfold Fit64; omega
        · rw [max64_toInt, ht]
          show max 1 (|d.toDim.stride| * d.toDim.extent) = _
          rw [h4]
        · omega
    obtain ⟨⟨c, hc1, hc2⟩, hc3, hc4⟩ := hc
    rw [← hc2] at hc3 hc4 ⊢
    rw [hc1]
    exact hcand c hc3 hc4)
  rw [ha]
  simp only [bind, Option.bind] at hbs ⊢
  rw [hbs]
  refine ⟨_, rfl, ?_⟩
  rw [variadicMin64_toInt, List.map_cons, ha', hbs', List.map_map]
  rfl

theorem resolveLoop64_eq (todo : List Dim64) : ∀ done : List Dim64,
    NonNeg ((done ++ todo).map Dim64.toDim) → FitsIndex ((done ++ todo).map Dim64.toDim) →
    ∃ r, resolveLoop64 done todo = some r ∧
      r.map Dim64.toDim = resolveLoop (done.map Dim64.toDim) (todo.map Dim64.toDim) := by
  induction todo with
  | nil => intro done _ _; exact ⟨done, rfl, rfl⟩
  | cons d ds ih =>
    intro done hn hf
    rw [List.map_cons, resolveLoop_cons]
    have hstep : ∃ d' : Dim64, resolveDim64 d (done ++ d :: ds) = some d' ∧
        d'.toDim = resolveDim d.toDim ((done ++ d :: ds).map Dim64.toDim) := by
      unfold resolveDim64 resolveDim
      rw [isUnresolved64_eq]
      show ∃ d' : Dim64, (if isUnresolved d.toDim.stride then _ else _) = _ ∧ _
      by_cases hu : isUnresolved d.toDim.stride = true
      · rw [if_pos hu, if_pos hu]
        have hnk : ¬ Known d.toDim := by
          intro hk; rw [(isUnresolved_false_iff d.toDim).2 hk] at hu; simp at hu
        obtain ⟨B, hB, hspan, hfit⟩ := hf
        have hst : (d.toDim.stride == -9223372036854775808) = true := by
          rw [beq_iff_eq]; by_contra h; exact hnk h
        have hBfit : B * max 1 d.extent.toInt ≤ 9223372036854775807 := by
          rw [List.map_append, List.map_cons, List.filter_append, List.filter_cons_of_pos (p := fun d : Dim => d.stride == -9223372036854775808) hst,
            List.map_append, List.map_cons, List.prod_append, List.prod_cons] at hfit
          have p1 := one_le_prod_max ((done.map Dim64.toDim).filter fun d => d.stride == -9223372036854775808)
          have p2 := one_le_prod_max ((ds.map Dim64.toDim).filter fun d => d.stride == -9223372036854775808)
          generalize (List.map (fun d => max 1 d.extent) ((done.map Dim64.toDim).filter fun d => d.stride == -9223372036854775808)).prod = P at *
          generalize (List.map (fun d => max 1 d.extent) ((ds.map Dim64.toDim).filter fun d => d.stride == -9223372036854775808)).prod = Q at *
          have hm1 : 1 ≤ max 1 d.extent.toInt := le_max_left _ _
          change B * (P * (max 1 d.extent.toInt * Q)) < _ at hfit
          generalize max 1 d.extent.toInt = m at *
          have h1 : 1 ≤ P * Q := by nlinarith
          have h2 : B * m ≤ (B * m) * (P * Q) := by nlinarith [mul_pos (by omega : 0 < B) (by omega : 0 < m)]
          have h3 : B * (P * (m * Q)) = (B * m) * (P * Q) := by ring
          omega
        have hme : d.toDim ∈ (done ++ d :: ds).map Dim64.toDim := List.mem_map_of_mem (by simp)
        obtain ⟨st, h1, h2⟩ := findStride64_val (hn _ hme) hB hn hspan hBfit
        refine ⟨{ d with stride := st }, by rw [h1]; rfl, ?_⟩
        show (⟨d.min.toInt, d.extent.toInt, st.toInt⟩ : Dim) = _
        rw [h2]; rfl
      · rw [if_neg hu, if_neg hu]
        exact ⟨d, rfl, rfl⟩
    obtain ⟨d', hd1, hd2⟩ := hstep
    have e : ((done ++ [d']) ++ ds).map Dim64.toDim =
        done.map Dim64.toDim ++ resolveDim d.toDim (done.map Dim64.toDim ++ d.toDim :: ds.map Dim64.toDim) ::
          ds.map Dim64.toDim := by
      simp [hd2]
    obtain ⟨r, hr1, hr2⟩ := ih (done ++ [d']) (by
      rw [e]
      intro x hx
      simp only [List.mem_append, List.mem_cons] at hx
      rcases hx with hx | rfl | hx
      · exact hn x (by simp only [List.map_append, List.mem_append]; exact Or.inl hx)
      · rw [resolveDim_extent]
        exact hn d.toDim (List.mem_map_of_mem (by simp))
      · exact hn x (by simp only [List.map_append, List.mem_append, List.map_cons, List.mem_cons]; exact Or.inr (Or.inr hx)))
      (by
      rw [e]
      apply fits_step
      simpa using hf)
    refine ⟨r, ?_, ?_⟩
    · rw [resolveLoop64, hd1]; exact hr1
    · rw [hr2]; simp [hd2]

end Nda
