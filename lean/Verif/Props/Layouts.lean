import Verif.Model.Layouts
import Verif.Props.Strides
import Verif.Lemmas.Static
/-
C67: the layouts of images, matrices and vectors; C68: chunky images with padded pixels.
-/
namespace Nda
open Spec

/-! ### Finding the stride -/

theorem findStride_eq_of {e v : Int} {dims : List Dim} (hv : v ∈ candidates dims) (hm : v ≤ indexMax)
    (h : ∀ d ∈ dims, Known d → Admissible v e d)
    (hle : ∀ c ∈ candidates dims, c < v → ∃ d ∈ dims, Known d ∧ ¬ Admissible c e d) :
    findStride e dims = v := by
  have hok : ∀ d ∈ dims, isStrideOk v e d = true := by
    intro d hd
    by_cases hk : Known d
    · rw [isStrideOk_iff (by have := candidates_ge_one hv; omega) hk]
      exact h d hd hk
    · exact isStrideOk_of_unknown hk
  have h1 := findStride_le hv hok
  rcases findStride_cases e dims with h2 | ⟨h2, h3⟩
  · omega
  · by_contra hne
    obtain ⟨d, hd, hk, hna⟩ := hle _ h2 (by omega)
    refine hna ((isStrideOk_iff (by have := findStride_ge_one e dims; omega) hk).1 (h3 d hd))

theorem known_of_pos {d : Dim} (h : 0 ≤ d.stride) : Known d := by
  unfold Known
  omega

theorem not_known_unresolved (a b : Int) : ¬ Known ⟨a, b, unresolved⟩ := by
  simp [Known, unresolved]

/-- The candidates for a list of dims whose strides are positive or unknown. -/
theorem candidate_of_pos {d : Dim} (he : 1 ≤ d.extent) (hs : 1 ≤ d.stride) :
    candidateStride d = d.extent * d.stride := by
  rw [candidateStride_known (known_of_pos (by omega)), span, abs_of_nonneg (by omega)]
  have : 1 * 1 ≤ d.extent * d.stride := mul_le_mul he hs (by omega) (by omega)
  omega

theorem admissible_pos {c e : Int} {d : Dim} (hs : 1 ≤ d.stride) :
    Admissible c e d ↔ (d.extent * d.stride ≤ c ∨ e * c ≤ d.stride) ∧ ¬ (e = 1 ∧ c = d.stride ∧ 1 < d.extent) := by
  unfold Admissible span
  rw [abs_of_nonneg (by omega)]

/-- The stride found next to one dim (and others that are unknown). -/
theorem findStride_one {e : Int} {d : Dim} {dims : List Dim} (he : 1 ≤ e) (h1 : 1 ≤ d.extent) (h2 : 1 ≤ d.stride)
    (hm : d.extent * d.stride ≤ indexMax) (hs : d.stride = 1) (hd : d ∈ dims)
    (ho : ∀ x ∈ dims, x = d ∨ ¬ Known x) : findStride e dims = d.extent * d.stride := by
  refine findStride_eq_of ?_ hm ?_ ?_
  · exact List.mem_cons_of_mem _ (List.mem_map.2 ⟨d, hd, candidate_of_pos h1 h2⟩)
  · intro x hx hk
    rcases ho x hx with rfl | hn
    · rw [admissible_pos h2]
      refine ⟨Or.inl (le_refl _), ?_⟩
      rintro ⟨_, h3, h4⟩
      rw [hs] at h3
      omega
    · exact absurd hk hn
  · intro c hc hlt
    refine ⟨d, hd, known_of_pos (by omega), ?_⟩
    have : c = 1 := by
      rcases List.mem_cons.1 hc with h | h
      · exact h
      · obtain ⟨x, hx, rfl⟩ := List.mem_map.1 h
        rcases ho x hx with rfl | hn
        · rw [candidate_of_pos h1 h2] at hlt
          omega
        · rw [candidateStride_unknown hn] at hlt
          omega
    subst this
    rw [admissible_pos h2]
    rw [hs] at hlt ⊢
    rintro ⟨h3, h4⟩
    rcases h3 with h3 | h3
    · omega
    · exact h4 ⟨by omega, rfl, by omega⟩

/-- The stride found next to two dims, the first of stride 1 and extent `p`, the second of extent `q` and stride
`t ≥ p`. -/
theorem findStride_two {e p q t : Int} {d f : Dim} {dims : List Dim} (he : 1 ≤ e) (hp : 1 ≤ p) (hq : 1 ≤ q)
    (hd1 : d.extent = p) (hd2 : d.stride = 1) (hf1 : f.extent = q) (hf2 : f.stride = t) (ht : p ≤ t)
    (hm : q * t ≤ indexMax) (hd : d ∈ dims) (hf : f ∈ dims) (ho : ∀ x ∈ dims, x = d ∨ x = f ∨ ¬ Known x) :
    findStride e dims = if p < t ∧ e * p ≤ t then p else q * t := by
  have hpt : t ≤ q * t := by
    have := mul_le_mul_of_nonneg_right hq (show (0 : Int) ≤ t by omega)
    omega
  have had : ∀ c, Admissible c e d ↔ (p ≤ c ∨ e * c ≤ 1) ∧ ¬ (e = 1 ∧ c = 1 ∧ 1 < p) := by
    intro c
    rw [admissible_pos (by omega), hd1, hd2, mul_one]
  have haf : ∀ c, Admissible c e f ↔ (q * t ≤ c ∨ e * c ≤ t) ∧ ¬ (e = 1 ∧ c = t ∧ 1 < q) := by
    intro c
    rw [admissible_pos (by omega), hf1, hf2]
  have hcd : candidateStride d = p := by rw [candidate_of_pos (by omega) (by omega), hd1, hd2, mul_one]
  have hcf : candidateStride f = q * t := by rw [candidate_of_pos (by omega) (by omega), hf1, hf2]
  have hkd : Known d := known_of_pos (by omega)
  have hkf : Known f := known_of_pos (by omega)
  have hc : ∀ c ∈ candidates dims, c = 1 ∨ c = p ∨ c = q * t ∨ c = indexMax := by
    intro c hc
    rcases List.mem_cons.1 hc with h | h
    · exact Or.inl h
    · obtain ⟨x, hx, rfl⟩ := List.mem_map.1 h
      rcases ho x hx with rfl | rfl | hn
      · exact Or.inr (Or.inl hcd)
      · exact Or.inr (Or.inr (Or.inl hcf))
      · exact Or.inr (Or.inr (Or.inr (candidateStride_unknown hn)))
  have h1d : 1 < p → ¬ Admissible 1 e d := by
    intro h
    rw [had]
    rintro ⟨h1, h2⟩
    rcases h1 with h1 | h1
    · omega
    · exact h2 ⟨by omega, rfl, h⟩
  split
  · rename_i hcase
    refine findStride_eq_of (List.mem_cons_of_mem _ (List.mem_map.2 ⟨d, hd, hcd⟩)) (by omega) ?_ ?_
    · intro x hx hk
      rcases ho x hx with rfl | rfl | hn
      · rw [had]
        exact ⟨Or.inl (le_refl _), by omega⟩
      · rw [haf]
        exact ⟨Or.inr hcase.2, by omega⟩
      · exact absurd hk hn
    · intro c hcc hlt
      rcases hc c hcc with rfl | rfl | rfl | rfl
      · exact ⟨d, hd, hkd, h1d hlt⟩
      · omega
      · omega
      · omega
  · rename_i hcase
    refine findStride_eq_of (List.mem_cons_of_mem _ (List.mem_map.2 ⟨f, hf, hcf⟩)) hm ?_ ?_
    · intro x hx hk
      rcases ho x hx with rfl | rfl | hn
      · rw [had]
        exact ⟨Or.inl (by omega), by omega⟩
      · rw [haf]
        refine ⟨Or.inl (le_refl _), ?_⟩
        rintro ⟨_, h3, h4⟩
        have := mul_le_mul_of_nonneg_right (show (2 : Int) ≤ q by omega) (show (0 : Int) ≤ t by omega)
        omega
      · exact absurd hk hn
    · have hpf : p < q * t → ¬ Admissible p e f := by
        intro hlt
        rw [haf]
        rintro ⟨h3, h4⟩
        rcases h3 with h3 | h3
        · omega
        · have hpt' : p = t := by
            by_contra hne
            exact hcase ⟨by omega, h3⟩
          have he1 : e = 1 := by
            by_contra hne
            have := mul_le_mul_of_nonneg_right (show (2 : Int) ≤ e by omega) (show (0 : Int) ≤ p by omega)
            omega
          refine h4 ⟨he1, hpt', ?_⟩
          by_contra hne
          have : q = 1 := by omega
          rw [this] at hlt
          omega
      intro c hcc hlt
      rcases hc c hcc with rfl | rfl | rfl | rfl
      · by_cases h1p : 1 < p
        · exact ⟨d, hd, hkd, h1d h1p⟩
        · have : p = 1 := by omega
          subst this
          exact ⟨f, hf, hkf, hpf hlt⟩
      · exact ⟨f, hf, hkf, hpf hlt⟩
      · omega
      · omega

theorem findStride_none {e : Int} {dims : List Dim} (ho : ∀ x ∈ dims, ¬ Known x) : findStride e dims = 1 := by
  refine findStride_eq_of (by simp [candidates]) (by decide) (fun d hd hk => absurd hk (ho d hd)) ?_
  intro c hc hlt
  have := candidates_ge_one hc
  omega

theorem resolve_three (a b c : Dim) :
    Shape.resolve [a, b, c] =
      [resolveDim a [a, b, c], resolveDim b [resolveDim a [a, b, c], b, c],
        resolveDim c [resolveDim a [a, b, c], resolveDim b [resolveDim a [a, b, c], b, c], c]] := rfl

theorem resolve_two (a b : Dim) :
    Shape.resolve [a, b] = [resolveDim a [a, b], resolveDim b [resolveDim a [a, b], b]] := rfl

theorem resolveDim_unresolved (a e : Int) (all : List Dim) :
    resolveDim ⟨a, e, unresolved⟩ all = ⟨a, e, findStride e all⟩ :=
  resolveDim_unknown all (not_known_unresolved a e)

theorem resolveDim_pos (a e : Int) {t : Int} (h : 0 ≤ t) (all : List Dim) : resolveDim ⟨a, e, t⟩ all = ⟨a, e, t⟩ :=
  resolveDim_known all (known_of_pos h)

/-! ### The layouts -/

/-- Numbers below `p * q * r` are written uniquely with the digits `k < p`, `i < q`, `j < r`. -/
theorem digits {p q r o : Int} (hp : 1 ≤ p) (hq : 1 ≤ q) :
    0 ≤ o ∧ o < p * q * r ↔
      ∃ k i j, (0 ≤ k ∧ k < p) ∧ (0 ≤ i ∧ i < q) ∧ (0 ≤ j ∧ j < r) ∧ o = k + p * (i + q * j) := by
  constructor
  · rintro ⟨h1, h2⟩
    have e1 := Int.emod_add_mul_ediv o p
    have e2 := Int.emod_add_mul_ediv (o / p) q
    have a1 := Int.emod_nonneg o (show p ≠ 0 by omega)
    have a2 := Int.emod_lt_of_pos o (show 0 < p by omega)
    have a3 := Int.emod_nonneg (o / p) (show q ≠ 0 by omega)
    have a4 := Int.emod_lt_of_pos (o / p) (show 0 < q by omega)
    have b1 : 0 ≤ o / p := Int.ediv_nonneg h1 (by omega)
    refine ⟨o % p, o / p % q, o / p / q, ⟨a1, a2⟩, ⟨a3, a4⟩, ⟨Int.ediv_nonneg b1 (by omega), ?_⟩, by rw [e2, e1]⟩
    have : o / p < q * r := Int.ediv_lt_of_lt_mul (by omega) (by rw [mul_comm, ← mul_assoc]; exact h2)
    exact Int.ediv_lt_of_lt_mul (by omega) (by rw [mul_comm]; exact this)
  · rintro ⟨k, i, j, hk, hi, hj, rfl⟩
    have h1 : 0 ≤ q * j := mul_nonneg (by omega) hj.1
    have h2 : 0 ≤ p * (i + q * j) := mul_nonneg (by omega) (by omega)
    have h3 : q * j ≤ q * (r - 1) := mul_le_mul_of_nonneg_left (by omega) (by omega)
    have h4 : p * (i + q * j) ≤ p * (q * r - 1) := mul_le_mul_of_nonneg_left (by rw [mul_sub] at h3; omega) (by omega)
    rw [mul_sub, ← mul_assoc] at h4
    omega

/-- The offsets of the elements of a shape are 0, 1, …, n - 1, each once. -/
def Consecutive (s : Shape) (n : Int) : Prop :=
  (∀ o, 0 ≤ o ∧ o < n ↔ ∃ i, InBox s i ∧ s.flatOffset i = o) ∧
  ∀ i j, InBox s i → InBox s j → s.flatOffset i = s.flatOffset j → i = j

/-- The sizes are positive and the number of elements is an `index_t`. -/
structure ImageSize (w h c : Int) : Prop where
  width : 1 ≤ w
  height : 1 ≤ h
  channels : 1 ≤ c
  total : c * w * h ≤ 9223372036854775807

theorem mul_le_total {a b c n : Int} (ha : 1 ≤ a) (hb : 1 ≤ b) (hc : 1 ≤ c) (h : a * b * c ≤ n) : a * b ≤ n := by
  have h0 : 0 ≤ a * b := mul_nonneg (by omega) (by omega)
  have := mul_le_mul_of_nonneg_left hc h0
  omega

theorem nested_pos {a b : Dim} (ha : 0 ≤ a.stride) (hb : 0 ≤ b.stride)
    (h : a.extent * a.stride ≤ b.stride ∨ b.extent * b.stride ≤ a.stride) : Nested a b := by
  unfold Nested span
  rwa [abs_of_nonneg ha, abs_of_nonneg hb]

theorem isStatic_of_ne {v : Int} (h : v ≠ -9) : isStatic v = true := by
  simp [isStatic, dynamic, h]

theorem make_strided (a b : Int) {t : Int} (h : t ≠ -9) :
    DimT.make ⟨dynamic, dynamic, t⟩ a b (DimT.defaultStride ⟨dynamic, dynamic, t⟩) = ⟨a, b, t⟩ := by
  unfold DimT.make DimT.defaultStride
  simp only [ciInit, isStatic_of_ne h, if_true]
  rfl

theorem make_any (a b : Int) :
    DimT.make ⟨dynamic, dynamic, dynamic⟩ a b (DimT.defaultStride ⟨dynamic, dynamic, dynamic⟩) = ⟨a, b, unresolved⟩ := rfl

theorem make_dense (a b e : Int) (h : e = b ∨ e = dynamic) :
    DimT.make ⟨dynamic, e, 1⟩ a b (DimT.defaultStride ⟨dynamic, e, 1⟩) = ⟨a, b, 1⟩ := by
  rcases h with rfl | rfl
  · unfold DimT.make
    have : ciInit e e = e := by unfold ciInit; split <;> rfl
    simp only [this]
    rfl
  · rfl

theorem make_channels (b e : Int) (h : e = b ∨ e = dynamic) :
    DimT.make ⟨0, e, 1⟩ 0 b (DimT.defaultStride ⟨0, e, 1⟩) = ⟨0, b, 1⟩ := by
  rcases h with rfl | rfl
  · unfold DimT.make
    have : ciInit e e = e := by unfold ciInit; split <;> rfl
    simp only [this]
    rfl
  · rfl

/-- C67: a chunky image (`chunky_image_shape<Channels>`, or `chunky_image_shape<>` with channels at run time) with `w`
columns, `h` rows and `c` channels stores pixel after pixel and row after row: the elements are consecutive in memory and
`(i, j, k)` is at `((j - y0) w + (i - x0)) c + k`. -/
theorem C67_chunky (channels x0 y0 w h c : Int) (hch : channels = c ∨ channels = dynamic) (hs : ImageSize w h c) :
    let s := Shape.resolve (shapeOfIntervals (chunkyImageShape channels channels) [⟨x0, w⟩, ⟨y0, h⟩, ⟨0, c⟩])
    shapeOfIntervalsAssert (chunkyImageShape channels channels) [⟨x0, w⟩, ⟨y0, h⟩, ⟨0, c⟩] = true ∧
    s = [⟨x0, w, c⟩, ⟨y0, h, w * c⟩, ⟨0, c, 1⟩] ∧
    (∀ i j k, s.flatOffset [i, j, k] = ((j - y0) * w + (i - x0)) * c + k) ∧ Consecutive s (c * w * h) := by
  intro s
  obtain ⟨h1, h2, h3, h4⟩ := hs
  have hcw := mul_le_total h3 h1 h2 h4
  have hc : c ≤ indexMax := by
    have := mul_le_mul_of_nonneg_left h1 (show (0 : Int) ≤ c by omega)
    unfold indexMax
    omega
  have hwc : w * c ≤ indexMax := by rw [mul_comm]; exact hcw
  have ey : findStride h [⟨x0, w, c⟩, ⟨y0, h, unresolved⟩, ⟨0, c, 1⟩] = w * c := by
    rw [findStride_two (p := c) (q := w) (t := c) (d := ⟨0, c, 1⟩) (f := ⟨x0, w, c⟩) h2 h3 h1 rfl rfl rfl rfl (le_refl c)
      hwc (by simp) (by simp)]
    · rw [if_neg (by omega)]
    · intro x hx
      simp only [List.mem_cons, List.not_mem_nil, or_false] at hx
      rcases hx with rfl | rfl | rfl
      · exact Or.inr (Or.inl rfl)
      · exact Or.inr (Or.inr (not_known_unresolved _ _))
      · exact Or.inl rfl
  have es : s = [⟨x0, w, c⟩, ⟨y0, h, w * c⟩, ⟨0, c, 1⟩] := by
    rcases hch with rfl | rfl
    · have : s = Shape.resolve [⟨x0, w, channels⟩, ⟨y0, h, unresolved⟩, ⟨0, channels, 1⟩] := by
        simp only [s, shapeOfIntervals, chunkyImageShape, List.zipWith_cons_cons, List.zipWith_nil_right,
          make_strided _ _ (show channels ≠ -9 by omega), make_any, make_channels _ _ (Or.inl rfl)]
      rw [this, resolve_three, resolveDim_pos x0 w (t := channels) (by omega), resolveDim_unresolved, ey,
        resolveDim_pos 0 channels (t := 1) (by omega)]
    · have : s = Shape.resolve [⟨x0, w, unresolved⟩, ⟨y0, h, unresolved⟩, ⟨0, c, 1⟩] := rfl
      have ex : findStride w [⟨x0, w, unresolved⟩, ⟨y0, h, unresolved⟩, ⟨0, c, 1⟩] = c := by
        rw [findStride_one (d := ⟨0, c, 1⟩) h1 h3 (le_refl 1) (by simpa using hc) rfl (by simp)]
        · simp
        · intro x hx
          simp only [List.mem_cons, List.not_mem_nil, or_false] at hx
          rcases hx with rfl | rfl | rfl
          · exact Or.inr (not_known_unresolved _ _)
          · exact Or.inr (not_known_unresolved _ _)
          · exact Or.inl rfl
      rw [this, resolve_three, resolveDim_unresolved, ex, resolveDim_unresolved, ey,
        resolveDim_pos 0 c (t := 1) (by omega)]
  have eo : ∀ i j k, s.flatOffset [i, j, k] = ((j - y0) * w + (i - x0)) * c + k := by
    intro i j k
    rw [es]
    simp only [flatOffset_eq, offsetOf]
    ring
  refine ⟨?_, es, eo, ?_, ?_⟩
  · rcases hch with rfl | rfl
    · simp [shapeOfIntervalsAssert, chunkyImageShape, DimT.makeAssert, DimT.defaultStride, ciAssert, isDynamic, isStatic,
        dynamic, show channels ≠ -9 by omega]
    · simp [shapeOfIntervalsAssert, chunkyImageShape, DimT.makeAssert, DimT.defaultStride, ciAssert, isDynamic, isStatic,
        dynamic]
  · intro o
    rw [digits h3 h1]
    constructor
    · rintro ⟨k, i, j, hk, hi, hj, rfl⟩
      refine ⟨[x0 + i, y0 + j, k], ?_, ?_⟩
      · rw [es]
        refine ⟨⟨?_, ?_⟩, ⟨?_, ?_⟩, ⟨?_, ?_⟩, trivial⟩ <;> simp only <;> omega
      · rw [eo]
        ring
    · rintro ⟨i, hi, rfl⟩
      rw [es] at hi
      match i, hi with
      | [i, j, k], ⟨⟨a1, a2⟩, ⟨b1, b2⟩, ⟨c1, c2⟩, _⟩ =>
        simp only at a1 a2 b1 b2 c1 c2
        refine ⟨k, i - x0, j - y0, ⟨by omega, by omega⟩, ⟨by omega, by omega⟩, ⟨by omega, by omega⟩, ?_⟩
        rw [eo]
        ring
  · intro i j hi hj he
    rw [es] at hi hj he
    rw [flatOffset_eq, flatOffset_eq] at he
    refine injective_of_nested (s := [⟨x0, w, c⟩, ⟨y0, h, w * c⟩, ⟨0, c, 1⟩]) ?_ ?_ i j hi hj he
    · have hwc0 : 0 ≤ w * c := mul_nonneg (by omega) (by omega)
      have hcwc : c ≤ w * c := by
        have := mul_le_mul_of_nonneg_right h1 (show (0 : Int) ≤ c by omega)
        omega
      simp only [List.pairwise_cons, List.mem_cons, List.not_mem_nil, or_false, forall_eq_or_imp, forall_eq,
        List.Pairwise.nil, and_true, false_implies, implies_true]
      refine ⟨⟨nested_pos (by simp; omega) (by simpa using hwc0) (Or.inl (le_refl _)),
        nested_pos (by simp; omega) (by simp) (Or.inr (by simp))⟩,
        nested_pos (by simpa using hwc0) (by simp) (Or.inr (by simpa using hcwc))⟩
    · intro d hd
      have hwc1 : 1 * 1 ≤ w * c := mul_le_mul h1 h3 (by omega) (by omega)
      simp only [List.mem_cons, List.not_mem_nil, or_false] at hd
      rcases hd with rfl | rfl | rfl <;> intro _ <;> simp <;> omega

/-- The planar layout. -/
theorem planar_layout (x0 y0 c0 w h c : Int) (hs : ImageSize w h c) (s : Shape)
    (es : s = [⟨x0, w, 1⟩, ⟨y0, h, w⟩, ⟨c0, c, h * w⟩]) :
    (∀ i j k, s.flatOffset [i, j, k] = ((k - c0) * h + (j - y0)) * w + (i - x0)) ∧ Consecutive s (w * h * c) := by
  obtain ⟨h1, h2, h3, h4⟩ := hs
  have eo : ∀ i j k, s.flatOffset [i, j, k] = ((k - c0) * h + (j - y0)) * w + (i - x0) := by
    intro i j k
    rw [es]
    simp only [flatOffset_eq, offsetOf]
    ring
  refine ⟨eo, ?_, ?_⟩
  · intro o
    rw [digits h1 h2]
    constructor
    · rintro ⟨i, j, k, hi, hj, hk, rfl⟩
      refine ⟨[x0 + i, y0 + j, c0 + k], ?_, ?_⟩
      · rw [es]
        refine ⟨⟨?_, ?_⟩, ⟨?_, ?_⟩, ⟨?_, ?_⟩, trivial⟩ <;> simp only <;> omega
      · rw [eo]
        ring
    · rintro ⟨i, hi, rfl⟩
      rw [es] at hi
      match i, hi with
      | [i, j, k], ⟨⟨a1, a2⟩, ⟨b1, b2⟩, ⟨c1, c2⟩, _⟩ =>
        simp only at a1 a2 b1 b2 c1 c2
        refine ⟨i - x0, j - y0, k - c0, ⟨by omega, by omega⟩, ⟨by omega, by omega⟩, ⟨by omega, by omega⟩, ?_⟩
        rw [eo]
        ring
  · intro i j hi hj he
    rw [es] at hi hj he
    rw [flatOffset_eq, flatOffset_eq] at he
    refine injective_of_nested (s := [⟨x0, w, 1⟩, ⟨y0, h, w⟩, ⟨c0, c, h * w⟩]) ?_ ?_ i j hi hj he
    · have hwc0 : 0 ≤ h * w := mul_nonneg (by omega) (by omega)
      have hcwc : w ≤ h * w := by
        have := mul_le_mul_of_nonneg_right h2 (show (0 : Int) ≤ w by omega)
        omega
      simp only [List.pairwise_cons, List.mem_cons, List.not_mem_nil, or_false, forall_eq_or_imp, forall_eq,
        List.Pairwise.nil, and_true, false_implies, implies_true]
      refine ⟨⟨nested_pos (by simp) (by simp; omega) (Or.inl (by simp)),
        nested_pos (by simp) (by simpa using hwc0) (Or.inl (by simpa using hcwc))⟩,
        nested_pos (by simp; omega) (by simpa using hwc0) (Or.inl (le_refl _))⟩
    · intro d hd
      have hwc1 : 1 * 1 ≤ h * w := mul_le_mul h2 h1 (by omega) (by omega)
      simp only [List.mem_cons, List.not_mem_nil, or_false] at hd
      rcases hd with rfl | rfl | rfl <;> intro _ <;> simp <;> omega

theorem planar_fits {w h c : Int} (hs : ImageSize w h c) : w ≤ indexMax ∧ h * w ≤ indexMax := by
  obtain ⟨h1, h2, h3, h4⟩ := hs
  have h5 : w * h * c ≤ 9223372036854775807 := by
    have : c * w * h = w * h * c := by ring
    omega
  have h6 := mul_le_total h1 h2 h3 h5
  have h7 := mul_le_mul_of_nonneg_left h2 (show (0 : Int) ≤ w by omega)
  have h8 : w * h = h * w := mul_comm _ _
  unfold indexMax
  omega

theorem planar_channels {x0 y0 c0 w h c : Int} (hs : ImageSize w h c) :
    findStride c [⟨x0, w, 1⟩, ⟨y0, h, w⟩, ⟨c0, c, unresolved⟩] = h * w := by
  obtain ⟨-, hhw⟩ := planar_fits hs
  rw [findStride_two (p := w) (q := h) (t := w) (d := ⟨x0, w, 1⟩) (f := ⟨y0, h, w⟩) hs.channels hs.width hs.height rfl
    rfl rfl rfl (le_refl w) hhw (by simp) (by simp)]
  · rw [if_neg (by omega)]
  · intro x hx
    simp only [List.mem_cons, List.not_mem_nil, or_false] at hx
    rcases hx with rfl | rfl | rfl
    · exact Or.inl rfl
    · exact Or.inr (Or.inl rfl)
    · exact Or.inr (Or.inr (not_known_unresolved _ _))

theorem planar_rows {x0 y0 c0 w h c : Int} (hs : ImageSize w h c) :
    findStride h [⟨x0, w, 1⟩, ⟨y0, h, unresolved⟩, ⟨c0, c, unresolved⟩] = w := by
  rw [findStride_one (d := ⟨x0, w, 1⟩) hs.height hs.width (le_refl 1) (by simpa using (planar_fits hs).1) rfl (by simp)]
  · simp
  · intro x hx
    simp only [List.mem_cons, List.not_mem_nil, or_false] at hx
    rcases hx with rfl | rfl | rfl
    · exact Or.inl rfl
    · exact Or.inr (not_known_unresolved _ _)
    · exact Or.inr (not_known_unresolved _ _)

/-- C67: a planar image stores channel after channel, row after row: the elements are consecutive and `(i, j, k)` is at
`((k - c0) h + (j - y0)) w + (i - x0)`. -/
theorem C67_planar (x0 y0 c0 w h c : Int) (hs : ImageSize w h c) :
    let s := Shape.resolve (shapeOfIntervals planarImageShape [⟨x0, w⟩, ⟨y0, h⟩, ⟨c0, c⟩])
    shapeOfIntervalsAssert planarImageShape [⟨x0, w⟩, ⟨y0, h⟩, ⟨c0, c⟩] = true ∧
    s = [⟨x0, w, 1⟩, ⟨y0, h, w⟩, ⟨c0, c, h * w⟩] ∧
    (∀ i j k, s.flatOffset [i, j, k] = ((k - c0) * h + (j - y0)) * w + (i - x0)) ∧ Consecutive s (w * h * c) := by
  intro s
  have es : s = [⟨x0, w, 1⟩, ⟨y0, h, w⟩, ⟨c0, c, h * w⟩] := by
    have : s = Shape.resolve [⟨x0, w, 1⟩, ⟨y0, h, unresolved⟩, ⟨c0, c, unresolved⟩] := rfl
    rw [this, resolve_three, resolveDim_pos x0 w (t := 1) (by omega), resolveDim_unresolved, planar_rows hs,
      resolveDim_unresolved, planar_channels hs]
  exact ⟨rfl, es, planar_layout x0 y0 c0 w h c hs s es⟩

/-- C67: so does an image (`image_shape`) whose strides are not given. -/
theorem C67_image (x0 y0 c0 w h c : Int) (hs : ImageSize w h c) :
    let s := Shape.resolve (shapeOfIntervals imageShape [⟨x0, w⟩, ⟨y0, h⟩, ⟨c0, c⟩])
    s = [⟨x0, w, 1⟩, ⟨y0, h, w⟩, ⟨c0, c, h * w⟩] ∧
    (∀ i j k, s.flatOffset [i, j, k] = ((k - c0) * h + (j - y0)) * w + (i - x0)) ∧ Consecutive s (w * h * c) := by
  intro s
  have es : s = [⟨x0, w, 1⟩, ⟨y0, h, w⟩, ⟨c0, c, h * w⟩] := by
    have : s = Shape.resolve [⟨x0, w, unresolved⟩, ⟨y0, h, unresolved⟩, ⟨c0, c, unresolved⟩] := rfl
    have ex : findStride w [⟨x0, w, unresolved⟩, ⟨y0, h, unresolved⟩, ⟨c0, c, unresolved⟩] = 1 := by
      refine findStride_none ?_
      intro x hx
      simp only [List.mem_cons, List.not_mem_nil, or_false] at hx
      rcases hx with rfl | rfl | rfl <;> exact not_known_unresolved _ _
    rw [this, resolve_three, resolveDim_unresolved, ex, resolveDim_unresolved, planar_rows hs, resolveDim_unresolved,
      planar_channels hs]
  exact ⟨es, planar_layout x0 y0 c0 w h c hs s es⟩

/-- C67: a matrix, with rows and columns at compile time or at run time, stores row after row: `(i, j)` is at
`(i - i0) cols + (j - j0)`. -/
theorem C67_matrix (rows cols i0 j0 m n : Int) (hr : rows = m ∨ rows = dynamic) (hc : cols = n ∨ cols = dynamic)
    (hm : 1 ≤ m) (hn : 1 ≤ n) (hfit : m * n ≤ 9223372036854775807) :
    let s := Shape.resolve (shapeOfIntervals (matrixShape rows cols) [⟨i0, m⟩, ⟨j0, n⟩])
    shapeOfIntervalsAssert (matrixShape rows cols) [⟨i0, m⟩, ⟨j0, n⟩] = true ∧
    s = [⟨i0, m, n⟩, ⟨j0, n, 1⟩] ∧
    (∀ i j, s.flatOffset [i, j] = (i - i0) * n + (j - j0)) ∧ Consecutive s (m * n) := by
  intro s
  have hn' : n ≤ indexMax := by
    have := mul_le_mul_of_nonneg_right hm (show (0 : Int) ≤ n by omega)
    unfold indexMax
    omega
  have er : DimT.make ⟨dynamic, rows, dynamic⟩ i0 m (DimT.defaultStride ⟨dynamic, rows, dynamic⟩) =
      ⟨i0, m, unresolved⟩ := by
    rcases hr with rfl | rfl
    · unfold DimT.make
      have : ciInit rows rows = rows := by unfold ciInit; split <;> rfl
      simp only [this]
      rfl
    · rfl
  have es : s = [⟨i0, m, n⟩, ⟨j0, n, 1⟩] := by
    have : s = Shape.resolve [⟨i0, m, unresolved⟩, ⟨j0, n, 1⟩] := by
      simp only [s, shapeOfIntervals, matrixShape, List.zipWith_cons_cons, List.zipWith_nil_right, er, make_dense _ _ _ hc]
    have ex : findStride m [⟨i0, m, unresolved⟩, ⟨j0, n, 1⟩] = n := by
      rw [findStride_one (d := ⟨j0, n, 1⟩) hm hn (le_refl 1) (by simpa using hn') rfl (by simp)]
      · simp
      · intro x hx
        simp only [List.mem_cons, List.not_mem_nil, or_false] at hx
        rcases hx with rfl | rfl
        · exact Or.inr (not_known_unresolved _ _)
        · exact Or.inl rfl
    rw [this, resolve_two, resolveDim_unresolved, ex, resolveDim_pos j0 n (t := 1) (by omega)]
  have eo : ∀ i j, s.flatOffset [i, j] = (i - i0) * n + (j - j0) := by
    intro i j
    rw [es]
    simp only [flatOffset_eq, offsetOf]
    ring
  refine ⟨?_, es, eo, ?_, ?_⟩
  · rcases hr with rfl | rfl <;> rcases hc with rfl | rfl <;>
      simp [shapeOfIntervalsAssert, matrixShape, DimT.makeAssert, DimT.defaultStride, ciAssert, isDynamic, isStatic, dynamic]
  · intro o
    rw [show m * n = n * 1 * m by ring, digits hn (le_refl 1)]
    constructor
    · rintro ⟨j, z, i, hj, hz, hi, rfl⟩
      obtain rfl : z = 0 := by omega
      refine ⟨[i0 + i, j0 + j], ?_, ?_⟩
      · rw [es]
        refine ⟨⟨?_, ?_⟩, ⟨?_, ?_⟩, trivial⟩ <;> simp only <;> omega
      · rw [eo]
        ring
    · rintro ⟨i, hi, rfl⟩
      rw [es] at hi
      match i, hi with
      | [i, j], ⟨⟨a1, a2⟩, ⟨b1, b2⟩, _⟩ =>
        simp only at a1 a2 b1 b2
        refine ⟨j - j0, 0, i - i0, ⟨by omega, by omega⟩, ⟨by omega, by omega⟩, ⟨by omega, by omega⟩, ?_⟩
        rw [eo]
        ring
  · intro i j hi hj he
    rw [es] at hi hj he
    rw [flatOffset_eq, flatOffset_eq] at he
    refine injective_of_nested (s := [⟨i0, m, n⟩, ⟨j0, n, 1⟩]) ?_ ?_ i j hi hj he
    · simp only [List.pairwise_cons, List.mem_cons, List.not_mem_nil, or_false, forall_eq,
        List.Pairwise.nil, and_true, false_implies, implies_true]
      exact nested_pos (by simp; omega) (by simp) (Or.inr (by simp))
    · intro d hd
      simp only [List.mem_cons, List.not_mem_nil, or_false] at hd
      rcases hd with rfl | rfl <;> intro _ <;> simp <;> omega

/-- C67: a vector is `n` consecutive elements. -/
theorem C67_vector (length i0 n : Int) (hl : length = n ∨ length = dynamic) :
    let s := Shape.resolve (shapeOfIntervals (vectorShape length) [⟨i0, n⟩])
    shapeOfIntervalsAssert (vectorShape length) [⟨i0, n⟩] = true ∧ s = [⟨i0, n, 1⟩] ∧
    ∀ i, s.flatOffset [i] = i - i0 := by
  intro s
  have es : s = [⟨i0, n, 1⟩] := by
    have : s = Shape.resolve [⟨i0, n, 1⟩] := by
      simp only [s, shapeOfIntervals, vectorShape, List.zipWith_cons_cons, List.zipWith_nil_right, make_dense _ _ _ hl]
    rw [this]
    exact resolve_of_known (by intro d hd; rw [List.mem_singleton.1 hd]; exact known_of_pos (by simp))
  refine ⟨?_, es, ?_⟩
  · rcases hl with rfl | rfl <;>
      simp [shapeOfIntervalsAssert, vectorShape, DimT.makeAssert, DimT.defaultStride, ciAssert, isDynamic, isStatic, dynamic]
  · intro i
    rw [es]
    simp only [flatOffset_eq, offsetOf]
    ring

/-- C67: the shape types are checked: constructing a shape from intervals fails an assertion of debug builds unless each
interval has the min and the extent that its dim has at compile time. -/
theorem C67_assertion (ts : List DimT) (vs : List Interval) (hl : ts.length = vs.length) :
    shapeOfIntervalsAssert ts vs = true ↔
      ∀ (k : Nat) (t : DimT) (v : Interval), ts[k]? = some t → vs[k]? = some v → Describes t.min v.min ∧ Describes t.extent v.extent := by
  induction ts generalizing vs with
  | nil =>
    obtain rfl : vs = [] := List.length_eq_zero_iff.1 hl.symm
    simp [shapeOfIntervalsAssert]
  | cons t ts ih =>
    obtain ⟨v, vs, rfl⟩ : ∃ v vs', vs = v :: vs' := by
      cases vs with
      | nil => simp at hl
      | cons v vs => exact ⟨v, vs, rfl⟩
    have hc : shapeOfIntervalsAssert (t :: ts) (v :: vs) =
        (t.makeAssert v.min v.extent t.defaultStride && shapeOfIntervalsAssert ts vs) := by
      simp [shapeOfIntervalsAssert]
    rw [hc, Bool.and_eq_true, ih vs (by simpa using hl), makeAssert_iff]
    have hd := defaultStride_describes t
    constructor
    · rintro ⟨⟨h1, h2, -⟩, h3⟩ k t' v' ht hv
      cases k with
      | zero =>
        simp only [List.getElem?_cons_zero, Option.some.injEq] at ht hv
        subst ht hv
        exact ⟨h1, h2⟩
      | succ k => exact h3 k t' v' (by simpa using ht) (by simpa using hv)
    · intro h
      obtain ⟨h1, h2⟩ := h 0 t v (by simp) (by simp)
      exact ⟨⟨h1, h2, hd⟩, fun k t' v' ht hv => h (k + 1) t' v' (by simpa using ht) (by simpa using hv)⟩

/-- A matrix of three rows by type and four rows by value. -/
example : shapeOfIntervalsAssert (matrixShape 3 dynamic) [⟨0, 4⟩, ⟨0, 5⟩] = false ∧
    shapeOfIntervalsAssert (matrixShape 3 dynamic) [⟨1, 3⟩, ⟨0, 5⟩] = true := by decide

/-- README.md:173: `chunky_image_shape<3>({1920, 1080, {}})`. -/
example : Shape.resolve (shapeOfIntervals (chunkyImageShape 3 3) [⟨0, 1920⟩, ⟨0, 1080⟩, ⟨0, 3⟩]) =
    [⟨0, 1920, 3⟩, ⟨0, 1080, 5760⟩, ⟨0, 3, 1⟩] := by decide +kernel

/-- A matrix with one column, and one with one row. -/
example : Shape.resolve (shapeOfIntervals (matrixShape dynamic dynamic) [⟨0, 5⟩, ⟨0, 1⟩]) = [⟨0, 5, 1⟩, ⟨0, 1, 1⟩] ∧
    Shape.resolve (shapeOfIntervals (matrixShape 1 4) [⟨0, 1⟩, ⟨2, 4⟩]) = [⟨0, 1, 4⟩, ⟨2, 4, 1⟩] := by decide +kernel

/-! ### C68: padded pixels -/

/-- C68, in full: "c is dense, and the dimension with the next stride is x. The stride in x may be larger than the number
of channels, to allow for padding pixels" (image.h:36-40), so `y` steps over a whole row of `w` pixels. -/
def PaddedLayout : Prop :=
  ∀ (c xStride x0 y0 w h : Int), 1 ≤ w → 1 ≤ h → 1 ≤ c → c ≤ xStride → xStride * w * h ≤ 9223372036854775807 →
    Shape.resolve (shapeOfIntervals (chunkyImageShape c xStride) [⟨x0, w⟩, ⟨y0, h⟩, ⟨0, c⟩]) =
      [⟨x0, w, xStride⟩, ⟨y0, h, xStride * w⟩, ⟨0, c, 1⟩]

/-- C68: what the stride of `y` is: if there is padding and all rows of one pixel column fit into one pixel, the rows
are put into the padding. -/
theorem C68_strides (c xStride x0 y0 w h : Int) (hw : 1 ≤ w) (hh : 1 ≤ h) (hc : 1 ≤ c) (hx : c ≤ xStride)
    (hfit : xStride * w ≤ 9223372036854775807) :
    Shape.resolve (shapeOfIntervals (chunkyImageShape c xStride) [⟨x0, w⟩, ⟨y0, h⟩, ⟨0, c⟩]) =
      [⟨x0, w, xStride⟩, ⟨y0, h, if c < xStride ∧ h * c ≤ xStride then c else xStride * w⟩, ⟨0, c, 1⟩] := by
  have : shapeOfIntervals (chunkyImageShape c xStride) [⟨x0, w⟩, ⟨y0, h⟩, ⟨0, c⟩] =
      [⟨x0, w, xStride⟩, ⟨y0, h, unresolved⟩, ⟨0, c, 1⟩] := by
    simp only [shapeOfIntervals, chunkyImageShape, List.zipWith_cons_cons, List.zipWith_nil_right,
      make_strided _ _ (show xStride ≠ -9 by omega), make_any, make_channels _ _ (Or.inl rfl)]
  have ey : findStride h [⟨x0, w, xStride⟩, ⟨y0, h, unresolved⟩, ⟨0, c, 1⟩] =
      if c < xStride ∧ h * c ≤ xStride then c else xStride * w := by
    rw [mul_comm xStride w]
    refine findStride_two (p := c) (q := w) (t := xStride) (d := ⟨0, c, 1⟩) (f := ⟨x0, w, xStride⟩) hh hc hw rfl rfl rfl rfl hx
      (by rw [mul_comm]; exact hfit) (by simp) (by simp) ?_
    intro x hx
    simp only [List.mem_cons, List.not_mem_nil, or_false] at hx
    rcases hx with rfl | rfl | rfl
    · exact Or.inr (Or.inl rfl)
    · exact Or.inr (Or.inr (not_known_unresolved _ _))
    · exact Or.inl rfl
  rw [this, resolve_three, resolveDim_pos x0 w (t := xStride) (by omega), resolveDim_unresolved, ey,
    resolveDim_pos 0 c (t := 1) (by omega)]

/-- C68 holds if there is no padding or the rows of one column do not fit into one pixel. -/
theorem C68_padded_partial (c xStride x0 y0 w h : Int) (hw : 1 ≤ w) (hh : 1 ≤ h) (hc : 1 ≤ c) (hx : c ≤ xStride)
    (hfit : xStride * w * h ≤ 9223372036854775807) (hrows : c = xStride ∨ xStride < h * c) :
    Shape.resolve (shapeOfIntervals (chunkyImageShape c xStride) [⟨x0, w⟩, ⟨y0, h⟩, ⟨0, c⟩]) =
      [⟨x0, w, xStride⟩, ⟨y0, h, xStride * w⟩, ⟨0, c, 1⟩] := by
  rw [C68_strides c xStride x0 y0 w h hw hh hc hx (mul_le_total (by omega) hw hh hfit), if_neg (by omega)]

/-- C68 is violated: `chunky_image_shape<1, 4>({10, 3, {}})` has its rows inside of the pixels. -/
theorem C68_counterexample : ¬ PaddedLayout := by
  intro h
  have := h 1 4 0 0 10 3 (by decide) (by decide) (by decide) (by decide) (by decide)
  revert this
  decide +kernel

/-- C68: a view of the first `c` channels of an image with `n` channels, `chunky_image_ref<T, c, n>(im.base(), {w, h, c})`
(test/image.cpp:163-164), addresses the channels of the pixels of the image exactly if there is one row, or `c = n`, or
the rows of one column of the view do not fit into one pixel. -/
theorem C68_view (c n w h : Int) (hw : 1 ≤ w) (hh : 1 ≤ h) (hc : 1 ≤ c) (hn : c ≤ n)
    (hfit : n * w * h ≤ 9223372036854775807) :
    let im := Shape.resolve (shapeOfIntervals (chunkyImageShape n n) [⟨0, w⟩, ⟨0, h⟩, ⟨0, n⟩])
    let view := Shape.resolve (shapeOfIntervals (chunkyImageShape c n) [⟨0, w⟩, ⟨0, h⟩, ⟨0, c⟩])
    (∀ i j k, InBox view [i, j, k] → view.flatOffset [i, j, k] = im.flatOffset [i, j, k]) ↔
      h = 1 ∨ c = n ∨ n < h * c := by
  intro im view
  have hnw := mul_le_total (by omega) hw hh hfit
  have ei := (C67_chunky n 0 0 w h n (Or.inl rfl) ⟨hw, hh, by omega, hfit⟩).2.1
  have ev := C68_strides c n 0 0 w h hw hh hc hn hnw
  change im = _ at ei
  change view = _ at ev
  have hoff : ∀ i j k, view.flatOffset [i, j, k] - im.flatOffset [i, j, k] =
      j * ((if c < n ∧ h * c ≤ n then c else n * w) - n * w) := by
    intro i j k
    rw [ei, ev]
    simp only [flatOffset_eq, offsetOf]
    ring
  constructor
  · intro hall
    by_contra hcon
    push Not at hcon
    obtain ⟨h1, h2, h3⟩ := hcon
    have hb : InBox view [0, 1, 0] := by
      rw [ev]
      refine ⟨⟨?_, ?_⟩, ⟨?_, ?_⟩, ⟨?_, ?_⟩, trivial⟩ <;> simp only <;> omega
    have e1 := hall 0 1 0 hb
    have e2 := hoff 0 1 0
    rw [if_pos ⟨by omega, h3⟩, e1] at e2
    have := mul_le_mul_of_nonneg_left hw (show (0 : Int) ≤ n by omega)
    omega
  · intro hor i j k hb
    have e2 := hoff i j k
    rw [ev] at hb
    have hj : 0 ≤ j ∧ j < h := by
      obtain ⟨_, ⟨b1, b2⟩, _⟩ := hb
      simp only at b1 b2
      omega
    rcases hor with h1 | h1
    · obtain rfl : j = 0 := by omega
      rw [zero_mul] at e2
      omega
    · rw [if_neg (by omega), sub_self, mul_zero] at e2
      omega

/-- The first three channels of an image with four channels and 30 rows; the first channel of an image with four rows. -/
example : Shape.resolve (shapeOfIntervals (chunkyImageShape 3 4) [⟨0, 40⟩, ⟨0, 30⟩, ⟨0, 3⟩]) =
      [⟨0, 40, 4⟩, ⟨0, 30, 160⟩, ⟨0, 3, 1⟩] ∧
    Shape.resolve (shapeOfIntervals (chunkyImageShape 1 4) [⟨0, 40⟩, ⟨0, 4⟩, ⟨0, 1⟩]) =
      [⟨0, 40, 4⟩, ⟨0, 4, 1⟩, ⟨0, 1, 1⟩] := by decide +kernel

end Nda
