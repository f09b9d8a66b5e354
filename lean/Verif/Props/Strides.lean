import Verif.Lemmas.Nested
import Verif.Lemmas.Counting
/-
C04–C07 (automatic strides), C08–C10 (is_one_to_one, is_compact, is_subset_of).
-/
namespace Nda
open Spec

/-! ### C04 -/

/-- C04: after `resolve()` no stride is the placeholder. -/
theorem C04_all_known (s : Shape) : (∀ d ∈ s.resolve, Known d) ∧ s.resolve.isResolved = true := by
  refine ⟨resolve_known s, ?_⟩
  unfold Shape.isResolved
  rw [all_iff]
  intro b hb
  obtain ⟨d, hd, rfl⟩ := List.mem_map.1 hb
  have := resolve_known s d hd
  simpa [isResolvedStride, unresolved, Known] using this

/-- C04: mins, extents and known strides are kept (same rank, dim by dim). -/
theorem C04_keeps (s : Shape) : RefinesStrides s s.resolve := resolve_refines s

/-- C04: resolving a shape without placeholder strides changes nothing; in particular
`resolve()` is idempotent. -/
theorem C04_idempotent (s : Shape) :
    s.resolve.resolve = s.resolve ∧ ((∀ d ∈ s, Known d) → s.resolve = s) :=
  ⟨resolve_of_known (resolve_known s), resolve_of_known⟩

/-- A padded row stride (known, 16) with an unknown channel and column stride. -/
example : Shape.resolve [⟨0, 3, unresolved⟩, ⟨0, 5, 16⟩, ⟨2, 4, unresolved⟩] =
    [⟨0, 3, 1⟩, ⟨0, 5, 16⟩, ⟨2, 4, 3⟩] := by decide

/-! ### C05 -/

/-- C05: with positive extents and no stride given, dim `k` gets the product of the extents of
the dims before it. -/
theorem C05_strides (s : Shape) (hpos : Pos s) (hu : ∀ d ∈ s, ¬ Known d)
    (hfit : (List.map Dim.extent s).prod ≤ 9223372036854775807) (a : List Dim) (d : Dim) (b : List Dim)
    (hs : s = a ++ d :: b) :
    ∃ a' b', s.resolve = a' ++ { d with stride := (a.map Dim.extent).prod } :: b' ∧
      a'.length = a.length := by
  refine ⟨prodStrides 1 a, prodStrides ((a.map Dim.extent).prod * d.extent) b, ?_, ?_⟩
  · rw [resolve_prod hpos hu hfit, hs, prodStrides_append, one_mul]; rfl
  · have : ∀ (l : List Dim) (c : Int), (prodStrides c l).length = l.length := by
      intro l
      induction l with
      | nil => intro c; rfl
      | cons x l ih => intro c; simp [prodStrides, ih]
    exact this a 1

/-- C05: the offsets are exactly `0 … size()-1`, each used by exactly one index; both
`is_compact()` and `is_one_to_one()` report it. -/
theorem C05_dense (s : Shape) (hpos : Pos s) (hu : ∀ d ∈ s, ¬ Known d)
    (hfit : (List.map Dim.extent s).prod ≤ 9223372036854775807) :
    (∀ o, (∃ i, InBox s.resolve i ∧ offsetOf s.resolve i = o) ↔ 0 ≤ o ∧ o < s.resolve.size) ∧
    Injective s.resolve ∧ s.resolve.isCompact = true ∧ s.resolve.isOneToOne = true := by
  rw [resolve_prod hpos hu hfit]
  have hpos' : Pos (prodStrides 1 s) := prodStrides_pos hpos
  have hnn := hpos'.nonNeg
  have hsz : (Shape.size (prodStrides 1 s) : Int) = (List.map Dim.extent s).prod := by
    have he : ∀ (l : List Dim) (c : Int), (prodStrides c l).map Dim.extent = l.map Dim.extent := by
      intro l
      induction l with
      | nil => intro c; rfl
      | cons x l ih => intro c; simp [prodStrides, ih]
    rw [size_eq, he, Int.toNat_of_nonneg (extent_prod_nonneg hpos.nonNeg)]
  have hsurj : ∀ o, 0 ≤ o → o < (Shape.size (prodStrides 1 s) : Int) →
      ∃ i, InBox (prodStrides 1 s) i ∧ offsetOf (prodStrides 1 s) i = o := by
    intro o h1 h2
    rw [hsz] at h2
    obtain ⟨i, hi, he⟩ := prodStrides_surj (le_refl 1) hpos o h1 h2
    exact ⟨i, hi, by rw [he, one_mul]⟩
  have hinj : Injective (prodStrides 1 s) :=
    injective_of_surj hnn hsurj (by omega)
  have hmin : Shape.flatMin (prodStrides 1 s) = 0 ∧
      Shape.flatMax (prodStrides 1 s) < Shape.size (prodStrides 1 s) := by
    rw [hsz]
    have : ∀ (l : List Dim) (c : Int), 1 ≤ c → Pos l → Shape.flatMin (prodStrides c l) = 0 ∧
        Shape.flatMax (prodStrides c l) = c * (l.map Dim.extent).prod - c := by
      intro l
      induction l with
      | nil => intro c _ _; simp [prodStrides]
      | cons x l ih =>
        intro c hc hp
        obtain ⟨hx, hl⟩ := pos_cons.1 hp
        obtain ⟨h1, h2⟩ := ih (c * x.extent) (by nlinarith) hl
        rw [prodStrides, flatMin_cons, flatMax_cons, h1, h2]
        simp only [List.map_cons, List.prod_cons]
        rw [min_eq_left (by omega), max_eq_right (by omega)]
        constructor <;> ring
    obtain ⟨h1, h2⟩ := this s 1 (le_refl 1) hpos
    exact ⟨h1, by rw [h2]; omega⟩
  refine ⟨fun o => ⟨?_, fun h => hsurj o h.1 h.2⟩, hinj, ?_, oneToOne_of_injective hnn hinj⟩
  · rintro ⟨i, hi, rfl⟩
    have := offsetOf_bounds hi
    omega
  · apply compact_of_surj hnn
    intro o h1 h2
    exact hsurj o (by omega) (by omega)

/-- Rank 4 including an extent-1 dim. -/
example : Shape.resolve [⟨0, 3, unresolved⟩, ⟨-1, 1, unresolved⟩, ⟨7, 5, unresolved⟩, ⟨0, 2, unresolved⟩] =
    [⟨0, 3, 1⟩, ⟨-1, 1, 3⟩, ⟨7, 5, 3⟩, ⟨0, 2, 15⟩] := by decide

/-! ### C06 -/

/-- C06: if the dims whose stride is given are pairwise nested, so are all dims afterwards. -/
theorem C06_nested (s : Shape) (hn : List.Pairwise (fun a b => Known a → Known b → Nested a b) s)
    (hm : ∀ d ∈ s, Known d → Moving d) (hf : FitsIndex s) :
    List.Pairwise Nested s.resolve ∧ ∀ d ∈ s.resolve, Moving d :=
  ⟨resolve_nested ⟨hn, hm, hf⟩, resolve_moving ⟨hn, hm, hf⟩⟩

/-- C06: hence no two in-range indices share an offset. -/
theorem C06_no_aliasing (s : Shape)
    (hn : List.Pairwise (fun a b => Known a → Known b → Nested a b) s)
    (hm : ∀ d ∈ s, Known d → Moving d) (hf : FitsIndex s) : Injective s.resolve :=
  injective_of_nested (C06_nested s hn hm hf).1 (C06_nested s hn hm hf).2

/-- The hypotheses hold for a flipped, padded middle dim with unknown strides around it. -/
example : Injective (Shape.resolve [⟨0, 3, unresolved⟩, ⟨0, 5, -16⟩, ⟨2, 9, unresolved⟩]) :=
  C06_no_aliasing _ (by simp [Known, unresolved])
    (by simp [Known, Moving, unresolved]) ⟨80, by
      refine ⟨by decide, ?_, by decide⟩
      intro d hd hk
      simp at hd
      rcases hd with rfl | rfl | rfl
      · exact absurd rfl hk
      · decide
      · exact absurd rfl hk⟩
example : Shape.resolve [⟨0, 3, unresolved⟩, ⟨0, 5, -16⟩, ⟨2, 9, unresolved⟩] =
    [⟨0, 3, 1⟩, ⟨0, 5, -16⟩, ⟨2, 9, 80⟩] := by decide

/-! ### C07 -/

/-- C07: the dims are processed from the first; the stride given to an unknown dim `d` is the
least number among 1 and the spans of the dims known at that moment which is admissible with
respect to all of them.  `a'` is the already resolved part, `b` the part still to come. -/
theorem C07_least_admissible (a : List Dim) (d : Dim) (b : List Dim) (hd : ¬ Known d)
    (hf : FitsIndex (a ++ d :: b)) :
    ∃ a' st r, Shape.resolve (a ++ d :: b) = a' ++ { d with stride := st } :: r ∧
      a'.length = a.length ∧ (∀ x ∈ a', Known x) ∧
      (st = 1 ∨ ∃ x ∈ a' ++ b, Known x ∧ st = max 1 (span x)) ∧
      (∀ x ∈ a' ++ b, Known x → Admissible st d.extent x) ∧
      ∀ c, (c = 1 ∨ ∃ x ∈ a' ++ b, Known x ∧ c = max 1 (span x)) →
        (∀ x ∈ a' ++ b, Known x → Admissible c d.extent x) → st ≤ c := by
  obtain ⟨a', r, h1, h2, h3⟩ := resolveLoop_split a [] d b
  have hfit := h2 hf
  have hmemk : ∀ x, Known x → (x ∈ a' ++ d :: b ↔ x ∈ a' ++ b) := by
    intro x hx
    have : x ≠ d := by rintro rfl; exact hd hx
    simp [this]
  refine ⟨a', findStride d.extent (a' ++ d :: b), r, ?_, by simpa using h1, ?_, ?_, ?_, ?_⟩
  · unfold Shape.resolve; rw [h3, resolveDim_unknown _ hd]
  · intro x hx
    apply resolve_known (a ++ d :: b)
    unfold Shape.resolve; rw [h3]; simp [hx]
  all_goals
    obtain ⟨B, hB, hspan, hlt⟩ := hfit
    have hpr := one_le_prod_max ((a' ++ d :: b).filter fun d => d.stride == -9223372036854775808)
    have hBm : B < indexMax := by unfold indexMax; nlinarith
    obtain ⟨f1, f2, f3, f4⟩ := findStride_spec hB hBm hspan d.extent
  · rcases List.mem_cons.1 f3 with h | h
    · exact Or.inl h
    · obtain ⟨x, hx, he⟩ := List.mem_map.1 h
      by_cases hk : Known x
      · exact Or.inr ⟨x, (hmemk x hk).1 hx, hk, by rw [← he, candidateStride_known hk]⟩
      · rw [candidateStride_unknown hk] at he; omega
  · intro x hx hk
    exact f4 x ((hmemk x hk).2 hx) hk
  · intro c hc hadm
    apply findStride_le
    · rcases hc with rfl | ⟨x, hx, hk, rfl⟩
      · simp [candidates]
      · exact List.mem_cons_of_mem _ (List.mem_map.2
          ⟨x, (hmemk x hk).2 hx, candidateStride_known hk⟩)
    · have hc0 : 0 ≤ c := by
        rcases hc with rfl | ⟨x, hx, hk, rfl⟩
        · decide
        · exact le_trans (by decide) (le_max_left 1 _)
      intro x hx
      by_cases hk : Known x
      · exact (isStrideOk_iff hc0 hk).2 (hadm x ((hmemk x hk).1 hx) hk)
      · exact isStrideOk_of_unknown hk

/-- The unknown dim slots inside the gap left by the known strides 1 and 64: span 8, not 1
(taken) and not 256. -/
example : Shape.resolve [⟨0, 8, 1⟩, ⟨0, 4, 64⟩, ⟨0, 8, unresolved⟩] =
    [⟨0, 8, 1⟩, ⟨0, 4, 64⟩, ⟨0, 8, 8⟩] := by decide
/-- With extent 9 the gap is too small and the stride goes outside. -/
example : Shape.resolve [⟨0, 8, 1⟩, ⟨0, 4, 64⟩, ⟨0, 9, unresolved⟩] =
    [⟨0, 8, 1⟩, ⟨0, 4, 64⟩, ⟨0, 9, 256⟩] := by decide

/-! ### C08 -/

/-- C08: a `false` from `is_one_to_one()` is proof of aliasing. -/
theorem C08_false_means_aliasing (s : Shape) (h : NonNeg s) (hf : s.isOneToOne = false) :
    ∃ i j, InBox s i ∧ InBox s j ∧ i ≠ j ∧ offsetOf s i = offsetOf s j :=
  alias_of_not_oneToOne h hf

/-- C08: on shapes with pairwise nested dims, `is_one_to_one()` decides injectivity (here:
both hold). -/
theorem C08_nested_decides (s : Shape) (h : NonNeg s) (hn : List.Pairwise Nested s)
    (hm : ∀ d ∈ s, Moving d) : s.isOneToOne = true ∧ Injective s :=
  have hi := injective_of_nested hn hm
  ⟨oneToOne_of_injective h hi, hi⟩

/-- C08, the documented equivalence (array.h:1252-1255) fails: `is_one_to_one()` is true for a
shape in which indices (2,0) and (0,1) share offset 4. -/
theorem C08_true_not_injective_counterexample :
    ∃ s : Shape, Pos s ∧ s.isOneToOne = true ∧ ¬ Injective s := by
  refine ⟨[⟨0, 3, 2⟩, ⟨0, 3, 4⟩], by simp [Pos], by decide, ?_⟩
  intro h
  exact absurd (h [2, 0] [0, 1] (by simp [InBox]) (by simp [InBox]) (by decide)) (by decide)

example : Shape.isOneToOne [⟨0, 4, 0⟩, ⟨0, 2, 1⟩] = false := by decide
example : Shape.isOneToOne [⟨0, 4, 1⟩, ⟨0, 3, -4⟩] = true ∧
    Injective [⟨0, 4, 1⟩, ⟨0, 3, -4⟩] :=
  C08_nested_decides _ (by simp [NonNeg]) (by simp [Nested, span]) (by simp [Moving])

/-! ### C09 -/

/-- C09: a shape without holes is reported compact. -/
theorem C09_no_holes_compact (s : Shape) (h : NonNeg s)
    (hs : ∀ o, s.flatMin ≤ o → o ≤ s.flatMax → ∃ i, InBox s i ∧ offsetOf s i = o) :
    s.isCompact = true := compact_of_surj h hs

/-- C09: an injective shape reported compact has no holes. -/
theorem C09_compact_no_holes (s : Shape) (h : NonNeg s) (hi : Injective s)
    (hc : s.isCompact = true) :
    ∀ o, s.flatMin ≤ o → o ≤ s.flatMax → ∃ i, InBox s i ∧ offsetOf s i = o :=
  surj_of_compact h hi hc

/-- C09: without injectivity the report is wrong: extents 4 and 2 with strides 0 and 2 have
8 indices, flat range [0, 2], and offset 1 is unused. -/
theorem C09_compact_with_hole_counterexample :
    ∃ s : Shape, Pos s ∧ s.isCompact = true ∧
      ∃ o, s.flatMin ≤ o ∧ o ≤ s.flatMax ∧ ¬ ∃ i, InBox s i ∧ offsetOf s i = o := by
  refine ⟨[⟨0, 4, 0⟩, ⟨0, 2, 2⟩], by simp [Pos], by decide, 1, by decide, by decide, ?_⟩
  rintro ⟨i, hi, ho⟩
  obtain ⟨x, i', rfl, hx, hi'⟩ := inBox_cons_iff.1 hi
  obtain ⟨y, i'', rfl, hy, hi''⟩ := inBox_cons_iff.1 hi'
  rw [inBox_nil] at hi''
  subst hi''
  simp [offsetOf] at ho
  omega

example : Shape.isCompact [⟨0, 4, 1⟩, ⟨0, 3, -4⟩] = true := by decide
example : Shape.isCompact [⟨0, 4, 1⟩, ⟨0, 3, 5⟩] = false := by decide

/-! ### C10 -/

/-- C10: if `new.is_subset_of(old, -offset)` then every element of `new` at `base + offset` lies
between the lowest and the highest element of `old` at `base`, both of which exist. -/
theorem C10_subset_bounds (new old : Shape) (offset base : Int) (hp : Pos old)
    (h : new.isSubsetOf old (-offset) = true) :
    ∃ lo hi, InBox old lo ∧ InBox old hi ∧ ∀ i, InBox new i →
      base + offsetOf old lo ≤ (base + offset) + offsetOf new i ∧
      (base + offset) + offsetOf new i ≤ base + offsetOf old hi := by
  obtain ⟨lo, hlo, elo⟩ := exists_flatMin hp
  obtain ⟨hi, hhi, ehi⟩ := exists_flatMax hp
  refine ⟨lo, hi, hlo, hhi, ?_⟩
  intro i hi'
  unfold Shape.isSubsetOf at h
  rw [Bool.and_eq_true, decide_eq_true_eq, decide_eq_true_eq] at h
  have := offsetOf_bounds hi'
  omega

/-- C10: and a `false` means that some element of a non-empty `new` lies outside that range. -/
theorem C10_not_subset (new old : Shape) (offset : Int) (hp : Pos new)
    (h : new.isSubsetOf old (-offset) = false) :
    ∃ i, InBox new i ∧ ((∀ j, InBox old j → offset + offsetOf new i < offsetOf old j) ∨
      ∀ j, InBox old j → offsetOf old j < offset + offsetOf new i) := by
  unfold Shape.isSubsetOf at h
  rw [Bool.and_eq_false_iff, decide_eq_false_iff_not, decide_eq_false_iff_not] at h
  rcases h with h | h
  · obtain ⟨i, hi, e⟩ := exists_flatMin hp
    refine ⟨i, hi, Or.inl fun j hj => ?_⟩
    have := offsetOf_bounds hj
    omega
  · obtain ⟨i, hi, e⟩ := exists_flatMax hp
    refine ⟨i, hi, Or.inr fun j hj => ?_⟩
    have := offsetOf_bounds hj
    omega

/-- C10: the documented set inclusion (array.h:1261-1263) is not what is computed. -/
theorem C10_not_set_inclusion_counterexample :
    ∃ new old : Shape, Pos new ∧ Pos old ∧ new.isSubsetOf old 0 = true ∧
      ∃ i, InBox new i ∧ ¬ ∃ j, InBox old j ∧ offsetOf old j = offsetOf new i := by
  refine ⟨[⟨0, 3, 1⟩], [⟨0, 2, 2⟩], by simp [Pos], by simp [Pos], by decide, [1], by simp [InBox], ?_⟩
  rintro ⟨i, hi, ho⟩
  obtain ⟨x, i', rfl, hx, hi'⟩ := inBox_cons_iff.1 hi
  rw [inBox_nil] at hi'
  subst hi'
  simp [offsetOf] at ho
  omega

example : Shape.isSubsetOf [⟨0, 2, 1⟩, ⟨0, 2, -4⟩] [⟨0, 4, 1⟩, ⟨0, 3, 4⟩] (-4) = true := by decide

end Nda
