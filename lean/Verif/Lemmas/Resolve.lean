import Verif.Lemmas.Flat
import Verif.Spec.Strides

namespace Nda
open Spec

theorem isUnresolved_iff (x : Int) : isUnresolved x = true ↔ x = -9223372036854775808 := by
  simp [isUnresolved, unresolved]

theorem isUnresolved_false_iff (d : Dim) : isUnresolved d.stride = false ↔ Known d := by
  rw [← Bool.not_eq_true, isUnresolved_iff]; rfl

theorem variadicMin_cons (a : Int) (l : List Int) :
    variadicMin (a :: l) = min a (variadicMin l) := by rw [variadicMin, imin_eq]

theorem variadicMin_le_max (l : List Int) : variadicMin l ≤ indexMax := by
  induction l with
  | nil => exact le_refl _
  | cons a l ih => rw [variadicMin_cons]; exact le_trans (min_le_right _ _) ih

theorem variadicMin_le {a : Int} {l : List Int} (h : a ∈ l) : variadicMin l ≤ a := by
  induction l with
  | nil => simp at h
  | cons b l ih =>
    rw [variadicMin_cons]
    rcases List.mem_cons.1 h with rfl | h
    · exact min_le_left _ _
    · exact le_trans (min_le_right _ _) (ih h)

theorem variadicMin_mem (l : List Int) : variadicMin l = indexMax ∨ variadicMin l ∈ l := by
  induction l with
  | nil => exact Or.inl rfl
  | cons a l ih =>
    rw [variadicMin_cons]
    rcases le_total a (variadicMin l) with h | h
    · rw [min_eq_left h]; exact Or.inr (by simp)
    · rw [min_eq_right h]
      rcases ih with h | h
      · exact Or.inl h
      · exact Or.inr (by simp [h])

theorem isStrideOk_iff {c e : Int} {d : Dim} (hc : 0 ≤ c) (hd : Known d) :
    isStrideOk c e d = true ↔ Admissible c e d := by
  unfold isStrideOk Admissible span
  rw [(isUnresolved_false_iff d).2 hd, iabs_eq, iabs_eq, abs_of_nonneg hc]
  simp only [Bool.false_eq_true, if_false, ge_iff_le]
  split
  · rename_i h
    simp only [Bool.false_eq_true, false_iff]
    exact fun hh => hh.2 h
  · rename_i h
    split
    · simp_all
    · split
      · simp_all
      · simp [*]

theorem isStrideOk_of_unknown {c e : Int} {d : Dim} (hd : ¬ Known d) :
    isStrideOk c e d = true := by
  unfold isStrideOk
  rw [if_pos]
  rw [isUnresolved_iff]
  simpa [Known] using hd

theorem filterStride_eq (c e : Int) (dims : List Dim) :
    filterStride c e dims = if ∀ d ∈ dims, isStrideOk c e d = true then c else indexMax := by
  unfold filterStride
  by_cases h : ∀ d ∈ dims, isStrideOk c e d = true
  · rw [if_pos, if_pos h]
    rw [all_iff]; simpa using h
  · rw [if_neg, if_neg h]
    rw [all_iff]; simpa using h

theorem candidateStride_known {d : Dim} (hd : Known d) :
    candidateStride d = max 1 (span d) := by
  unfold candidateStride span
  rw [(isUnresolved_false_iff d).2 hd, imax_eq, iabs_eq, mul_comm]
  simp

theorem candidateStride_unknown {d : Dim} (hd : ¬ Known d) : candidateStride d = indexMax := by
  unfold candidateStride
  rw [if_pos]
  rw [isUnresolved_iff]
  simpa [Known] using hd

/-- The candidates considered for an unknown stride. -/
def candidates (dims : List Dim) : List Int := 1 :: dims.map candidateStride

theorem candidates_ge_one {dims : List Dim} {c : Int} (h : c ∈ candidates dims) : 1 ≤ c := by
  rcases List.mem_cons.1 h with rfl | h
  · exact le_refl _
  · obtain ⟨d, _, rfl⟩ := List.mem_map.1 h
    by_cases hd : Known d
    · rw [candidateStride_known hd]; exact le_max_left _ _
    · rw [candidateStride_unknown hd]; decide

theorem findStride_eq (e : Int) (dims : List Dim) :
    findStride e dims = variadicMin ((candidates dims).map fun c => filterStride c e dims) := by
  unfold findStride candidates
  rw [List.map_cons, List.map_map]; rfl

/-- Either no candidate is admissible, or the least admissible candidate is chosen. -/
theorem findStride_cases (e : Int) (dims : List Dim) :
    findStride e dims = indexMax ∨
    (findStride e dims ∈ candidates dims ∧
      ∀ d ∈ dims, isStrideOk (findStride e dims) e d = true) := by
  rw [findStride_eq]
  rcases variadicMin_mem ((candidates dims).map fun c => filterStride c e dims) with h | h
  · exact Or.inl h
  · obtain ⟨c, hc, hce⟩ := List.mem_map.1 h
    rw [filterStride_eq] at hce
    split at hce
    · rename_i hok
      rw [← hce]; exact Or.inr ⟨hc, hok⟩
    · exact Or.inl hce.symm

theorem findStride_le {e c : Int} {dims : List Dim} (hc : c ∈ candidates dims)
    (hok : ∀ d ∈ dims, isStrideOk c e d = true) : findStride e dims ≤ c := by
  rw [findStride_eq]
  apply variadicMin_le
  apply List.mem_map.2 ⟨c, hc, _⟩
  rw [filterStride_eq, if_pos hok]

theorem findStride_ge_one (e : Int) (dims : List Dim) : 1 ≤ findStride e dims := by
  rcases findStride_cases e dims with h | ⟨h, _⟩
  · rw [h]; decide
  · exact candidates_ge_one h

/-- The largest of the spans of known dims (at least 1) is an admissible candidate. -/
theorem exists_candidate (dims : List Dim) (B : Int) (hB : 1 ≤ B)
    (hspan : ∀ d ∈ dims, Known d → span d ≤ B) (e : Int) :
    ∃ c ∈ candidates dims, (1 ≤ c ∧ c ≤ B) ∧ ∀ d ∈ dims, isStrideOk c e d = true := by
  -- the maximum over known dims
  have hmax : ∃ c ∈ candidates dims, (1 ≤ c ∧ c ≤ B) ∧ ∀ d ∈ dims, Known d → span d ≤ c := by
    clear e
    induction dims with
    | nil => exact ⟨1, by simp [candidates], ⟨le_refl _, hB⟩, by simp⟩
    | cons d ds ih =>
      obtain ⟨c, hc, ⟨h1, h2⟩, h3⟩ := ih (fun x hx => hspan x (by simp [hx]))
      have hc' : c ∈ candidates (d :: ds) := by
        simp only [candidates, List.map_cons, List.mem_cons] at hc ⊢; tauto
      by_cases hd : Known d
      · by_cases hle : span d ≤ c
        · refine ⟨c, hc', ⟨h1, h2⟩, ?_⟩
          intro x hx hk
          rcases List.mem_cons.1 hx with rfl | hx
          · exact hle
          · exact h3 x hx hk
        · have hd' := hspan d (by simp) hd
          refine ⟨span d, ?_, ⟨by omega, hd'⟩, ?_⟩
          · simp only [candidates, List.map_cons, List.mem_cons]
            right; left
            rw [candidateStride_known hd, max_eq_right (by omega)]
          · intro x hx hk
            rcases List.mem_cons.1 hx with rfl | hx
            · exact le_refl _
            · have := h3 x hx hk; omega
      · refine ⟨c, hc', ⟨h1, h2⟩, ?_⟩
        intro x hx hk
        rcases List.mem_cons.1 hx with rfl | hx
        · exact absurd hk hd
        · exact h3 x hx hk
  obtain ⟨c, hc, hb, h3⟩ := hmax
  refine ⟨c, hc, hb, ?_⟩
  intro d hd
  by_cases hk : Known d
  · rw [isStrideOk_iff (by omega) hk]
    refine ⟨Or.inl (h3 d hd hk), ?_⟩
    rintro ⟨_, h5, h6⟩
    have := h3 d hd hk
    unfold span at this
    rw [← h5] at this
    nlinarith
  · exact isStrideOk_of_unknown hk

theorem findStride_spec {dims : List Dim} {B : Int} (hB : 1 ≤ B) (hBm : B < indexMax)
    (hspan : ∀ d ∈ dims, Known d → span d ≤ B) (e : Int) :
    1 ≤ findStride e dims ∧ findStride e dims ≤ B ∧ findStride e dims ∈ candidates dims ∧
    ∀ d ∈ dims, Known d → Admissible (findStride e dims) e d := by
  obtain ⟨c, hc, ⟨h1, h2⟩, hok⟩ := exists_candidate dims B hB hspan e
  have hle := findStride_le hc hok
  have hge := findStride_ge_one e dims
  rcases findStride_cases e dims with h | ⟨hm, h⟩
  · omega
  · refine ⟨hge, by omega, hm, ?_⟩
    intro d hd hk
    exact (isStrideOk_iff (by omega) hk).1 (h d hd)

/-! ### The loop over the dims -/

/-- One step of the loop: the new value of `dim0`. -/
def resolveDim (d : Dim) (all : List Dim) : Dim :=
  if isUnresolved d.stride then { d with stride := findStride d.extent all } else d

theorem resolveLoop_cons (done : List Dim) (d : Dim) (ds : List Dim) :
    resolveLoop done (d :: ds) = resolveLoop (done ++ [resolveDim d (done ++ d :: ds)]) ds := rfl

theorem resolveDim_known {d : Dim} (all : List Dim) (h : Known d) : resolveDim d all = d := by
  unfold resolveDim
  rw [(isUnresolved_false_iff d).2 h]; rfl

theorem resolveDim_unknown {d : Dim} (all : List Dim) (h : ¬ Known d) :
    resolveDim d all = { d with stride := findStride d.extent all } := by
  unfold resolveDim
  rw [if_pos]
  rw [isUnresolved_iff]; simpa [Known] using h

theorem resolveDim_isKnown (d : Dim) (all : List Dim) : Known (resolveDim d all) := by
  by_cases h : Known d
  · rwa [resolveDim_known all h]
  · rw [resolveDim_unknown all h]
    have := findStride_ge_one d.extent all
    unfold Known
    simp only
    omega

theorem resolveDim_min (d : Dim) (all : List Dim) : (resolveDim d all).min = d.min := by
  unfold resolveDim; split <;> rfl

theorem resolveDim_extent (d : Dim) (all : List Dim) : (resolveDim d all).extent = d.extent := by
  unfold resolveDim; split <;> rfl

/-- Invariant rule for the loop. -/
theorem resolveLoop_invariant (I : List Dim → List Dim → Prop)
    (step : ∀ done d ds, I done (d :: ds) → I (done ++ [resolveDim d (done ++ d :: ds)]) ds) :
    ∀ todo done, I done todo → I (resolveLoop done todo) [] := by
  intro todo
  induction todo with
  | nil => intro done h; exact h
  | cons d ds ih =>
    intro done h
    rw [resolveLoop_cons]
    exact ih _ (step _ _ _ h)

theorem resolve_known (s : Shape) : ∀ d ∈ s.resolve, Known d := by
  have := resolveLoop_invariant (fun done _ => ∀ d ∈ done, Known d) (by
    intro done d ds h x hx
    rcases List.mem_append.1 hx with hx | hx
    · exact h x hx
    · rw [List.mem_singleton.1 hx]; exact resolveDim_isKnown _ _) s [] (by simp)
  exact this

theorem resolve_refines (s : Shape) : RefinesStrides s s.resolve := by
  have := resolveLoop_invariant
    (fun done todo => RefinesStrides s (done ++ todo)) (by
      intro done d ds h
      have h' : RefinesStrides (done ++ d :: ds)
          ((done ++ [resolveDim d (done ++ d :: ds)]) ++ ds) := by
        rw [List.append_assoc, List.singleton_append]
        have hr : ∀ l : List Dim, RefinesStrides l l := by
          intro l
          exact List.forall₂_same.2 (fun x _ => ⟨rfl, rfl, fun _ => rfl⟩)
        refine List.rel_append (hr done) (List.Forall₂.cons ⟨?_, ?_, ?_⟩ (hr ds))
        · exact resolveDim_min _ _
        · exact resolveDim_extent _ _
        · intro hk; rw [resolveDim_known _ hk]
      -- transitivity
      have tr : ∀ {a b c : List Dim}, RefinesStrides a b → RefinesStrides b c →
          RefinesStrides a c := by
        intro a b c hab
        unfold RefinesStrides at hab ⊢
        induction hab generalizing c with
        | nil => intro h; exact h
        | cons hxy _ ih =>
          intro h
          cases h with
          | cons hyz h =>
            refine List.Forall₂.cons ⟨?_, ?_, ?_⟩ (ih h)
            · exact hyz.1.trans hxy.1
            · exact hyz.2.1.trans hxy.2.1
            · intro hk
              have e := hxy.2.2 hk
              rw [← e]
              exact hyz.2.2 (by unfold Known at hk ⊢; rwa [e])
      exact tr h h') s [] (by
        exact List.forall₂_same.2 (fun x _ => ⟨rfl, rfl, fun _ => rfl⟩))
  rw [List.append_nil] at this
  exact this

theorem resolve_of_known {s : Shape} (h : ∀ d ∈ s, Known d) : s.resolve = s := by
  have hr := resolve_refines s
  have : ∀ {a b : List Dim}, RefinesStrides a b → (∀ d ∈ a, Known d) → b = a := by
    intro a b hab
    unfold RefinesStrides at hab
    induction hab with
    | nil => intro _; rfl
    | cons hxy _ ih =>
      intro hk
      rw [ih (fun d hd => hk d (by simp [hd]))]
      have e : ∀ x y : Dim, y.min = x.min → y.extent = x.extent → y.stride = x.stride → y = x := by
        rintro ⟨⟩ ⟨⟩ rfl rfl rfl; rfl
      rw [e _ _ hxy.1 hxy.2.1 (hxy.2.2 (hk _ (by simp)))]
  exact this hr h

theorem resolve_length (s : Shape) : List.length s.resolve = s.length :=
  (resolve_refines s).length_eq.symm

end Nda
