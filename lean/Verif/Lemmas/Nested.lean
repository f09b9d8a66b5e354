import Verif.Lemmas.Resolve
import Mathlib.Algebra.Order.BigOperators.Group.List
import Mathlib.Tactic.Linarith
import Mathlib.Tactic.Ring
/-
Pairwise nested dims give an injective index-to-offset map, and `resolve` preserves nesting.
-/
namespace Nda
open Spec

theorem Spec.Nested.symm {a b : Dim} (h : Nested a b) : Nested b a := Or.symm h

/-- Every non-empty list has an element of largest stride magnitude. -/
theorem exists_max_stride (l : List (Dim × Int)) (h : l ≠ []) :
    ∃ m ∈ l, ∀ a ∈ l, |a.1.stride| ≤ |m.1.stride| := by
  induction l with
  | nil => exact absurd rfl h
  | cons a l ih =>
    by_cases hl : l = []
    · subst hl; exact ⟨a, by simp, by simp⟩
    · obtain ⟨m, hm, hmax⟩ := ih hl
      rcases le_total |a.1.stride| |m.1.stride| with h1 | h1
      · refine ⟨m, by simp [hm], ?_⟩
        intro x hx
        rcases List.mem_cons.1 hx with rfl | hx
        · exact h1
        · exact hmax x hx
      · refine ⟨a, by simp, ?_⟩
        intro x hx
        rcases List.mem_cons.1 hx with rfl | hx
        · exact le_refl _
        · exact le_trans (hmax x hx) h1

/-- An entry that moves: at least two indices and a non-zero stride. -/
def Active (a : Dim × Int) : Prop := 2 ≤ a.1.extent ∧ a.1.stride ≠ 0

theorem rest_inside {m : Dim × Int} {rest : List (Dim × Int)}
    (hp : (m :: rest).Pairwise (fun a b => Nested a.1 b.1)) (ha : ∀ a ∈ m :: rest, Active a)
    (hmax : ∀ a ∈ rest, |a.1.stride| ≤ |m.1.stride|) :
    ∀ a ∈ rest, span a.1 ≤ |m.1.stride| := by
  intro a har
  have hn := (List.pairwise_cons.1 hp).1 a har
  rcases hn with h | h
  · exfalso
    obtain ⟨h1, h2⟩ := ha m (by simp)
    have h3 := hmax a har
    have h4 : 0 < |m.1.stride| := abs_pos.2 h2
    unfold span at h
    nlinarith
  · exact h

theorem active_sum_lt : ∀ (n : Nat) (l : List (Dim × Int)) (_ : l.length = n) (B : Int) (_ : 0 < B)
    (_ : l.Pairwise (fun a b => Nested a.1 b.1)) (_ : ∀ a ∈ l, Active a)
    (_ : ∀ a ∈ l, span a.1 ≤ B),
    (l.map fun a => (a.1.extent - 1) * |a.1.stride|).sum < B := by
  intro n
  induction n with
  | zero => intro l hl B hB _ _ _; rw [List.length_eq_zero_iff.1 hl]; simpa using hB
  | succ n ih =>
    intro l hl B hB hp ha hs
    have hne : l ≠ [] := by rintro rfl; simp at hl
    obtain ⟨m, hm, hmax⟩ := exists_max_stride l hne
    obtain ⟨l1, l2, rfl⟩ := List.append_of_mem hm
    have hperm : (l1 ++ m :: l2).Perm (m :: (l1 ++ l2)) := List.perm_middle
    have hp' : (m :: (l1 ++ l2)).Pairwise (fun a b => Nested a.1 b.1) :=
      (hperm.pairwise_iff (fun h => Nested.symm h)).1 hp
    have ha' : ∀ a ∈ m :: (l1 ++ l2), Active a := fun a h => ha a (hperm.mem_iff.2 h)
    have hmax' : ∀ a ∈ l1 ++ l2, |a.1.stride| ≤ |m.1.stride| := fun a h =>
      hmax a (hperm.mem_iff.2 (by simp [List.mem_append.1 h]))
    have hin := rest_inside hp' ha' hmax'
    obtain ⟨h1, h2⟩ := ha m (by simp)
    have h4 : 0 < |m.1.stride| := abs_pos.2 h2
    have hlen : (l1 ++ l2).length = n := by
      have := hperm.length_eq; simp at this hl ⊢; omega
    have hrest := ih (l1 ++ l2) hlen |m.1.stride| h4 (List.pairwise_cons.1 hp').2
      (fun a h => ha' a (by simp [List.mem_append.1 h])) hin
    rw [((hperm.map _).sum_eq)]
    rw [List.map_cons, List.sum_cons]
    have := hs m (by simp)
    unfold span at this
    nlinarith

/-- A list of dims with steps `δ`, each smaller than the extent. -/
theorem active_combination_zero {l : List (Dim × Int)}
    (hp : l.Pairwise (fun a b => Nested a.1 b.1))
    (hm : ∀ a ∈ l, Moving a.1) (hδ : ∀ a ∈ l, |a.2| ≤ a.1.extent - 1)
    (h0 : (l.map fun a => a.2 * a.1.stride).sum = 0) : ∀ a ∈ l, a.2 = 0 := by
  by_contra hcon
  push Not at hcon
  obtain ⟨a0, ha0, ha0n⟩ := hcon
  set l' := l.filter (fun a => a.2 ≠ 0) with hl'
  have hsum : (l'.map fun a => a.2 * a.1.stride).sum = 0 := by
    rw [← h0, hl']
    clear hl' l' h0 hp hm hδ ha0
    induction l with
    | nil => rfl
    | cons a l ih =>
      by_cases h : a.2 = 0
      · simp [h] at ih ⊢; exact ih
      · simp [h] at ih ⊢; exact ih
  have hact : ∀ a ∈ l', Active a := by
    intro a ha
    rw [hl', List.mem_filter] at ha
    have h1 := hδ a ha.1
    have h2 : a.2 ≠ 0 := by simpa using ha.2
    have h3 := abs_pos.2 h2
    exact ⟨by omega, hm a ha.1 (by omega)⟩
  have hne : l' ≠ [] := by
    have : a0 ∈ l' := by rw [hl', List.mem_filter]; exact ⟨ha0, by simpa using ha0n⟩
    exact List.ne_nil_of_mem this
  have hp1 : l'.Pairwise (fun a b => Nested a.1 b.1) := hp.filter _
  obtain ⟨m, hmm, hmax⟩ := exists_max_stride l' hne
  have hmem : ∀ a ∈ l', a ∈ l ∧ a.2 ≠ 0 := by
    intro a ha
    rw [hl', List.mem_filter] at ha
    exact ⟨ha.1, by simpa using ha.2⟩
  clear_value l'
  obtain ⟨l1, l2, rfl⟩ := List.append_of_mem hmm
  have hperm : (l1 ++ m :: l2).Perm (m :: (l1 ++ l2)) := List.perm_middle
  have hp' : (m :: (l1 ++ l2)).Pairwise (fun a b => Nested a.1 b.1) :=
    (hperm.pairwise_iff (fun h => Nested.symm h)).1 hp1
  have ha' : ∀ a ∈ m :: (l1 ++ l2), Active a := fun a h => hact a (hperm.mem_iff.2 h)
  have hmax' : ∀ a ∈ l1 ++ l2, |a.1.stride| ≤ |m.1.stride| := fun a h =>
    hmax a (hperm.mem_iff.2 (by simp [List.mem_append.1 h]))
  have hin := rest_inside hp' ha' hmax'
  have hms : 0 < |m.1.stride| := abs_pos.2 (hact m hmm).2
  have hrest := active_sum_lt _ (l1 ++ l2) rfl |m.1.stride| hms (List.pairwise_cons.1 hp').2
      (fun a h => ha' a (by simp [List.mem_append.1 h])) hin
  rw [(hperm.map _).sum_eq, List.map_cons, List.sum_cons] at hsum
  have hb : |((l1 ++ l2).map fun a => a.2 * a.1.stride).sum| ≤
      ((l1 ++ l2).map fun a => (a.1.extent - 1) * |a.1.stride|).sum := by
    have hall : ∀ a ∈ l1 ++ l2, |a.2| ≤ a.1.extent - 1 := fun a h =>
      hδ a (hmem a (hperm.mem_iff.2 (by simp [List.mem_append.1 h]))).1
    generalize l1 ++ l2 = r at hall
    induction r with
    | nil => simp
    | cons a r ih =>
      rw [List.map_cons, List.sum_cons, List.map_cons, List.sum_cons]
      have h1 := ih (fun x hx => hall x (by simp [hx]))
      have h2 := hall a (by simp)
      have h3 := abs_add_le (a.2 * a.1.stride) (r.map fun a => a.2 * a.1.stride).sum
      have h4 : |a.2 * a.1.stride| ≤ (a.1.extent - 1) * |a.1.stride| := by
        rw [abs_mul]; exact mul_le_mul_of_nonneg_right h2 (abs_nonneg _)
      omega
  have hm2 : m.2 ≠ 0 := (hmem m hmm).2
  have h5 : |m.2 * m.1.stride| < |m.1.stride| := by
    have : m.2 * m.1.stride = -((l1 ++ l2).map fun a => a.2 * a.1.stride).sum := by linarith
    rw [this, abs_neg]; omega
  rw [abs_mul] at h5
  have h6 : 1 ≤ |m.2| := Int.one_le_abs hm2
  nlinarith

theorem injective_of_nested {s : Shape} (hp : List.Pairwise Nested s) (hm : ∀ d ∈ s, Moving d) :
    Injective s := by
  intro i j hi hj hij
  have key : ∀ (s : Shape) (i j : Index), InBox s i → InBox s j →
      ∃ l : List (Dim × Int), l.map Prod.fst = s ∧
        (l.map fun a => a.2 * a.1.stride).sum = offsetOf s i - offsetOf s j ∧
        (∀ a ∈ l, |a.2| ≤ a.1.extent - 1) ∧ ((∀ a ∈ l, a.2 = 0) → i = j) := by
    intro s
    induction s with
    | nil =>
      intro i j hi hj
      rw [inBox_nil] at hi hj
      subst hi; subst hj
      exact ⟨[], rfl, by simp, by simp, by simp⟩
    | cons d ds ih =>
      intro i j hi hj
      obtain ⟨x, i', rfl, hx, hi'⟩ := inBox_cons_iff.1 hi
      obtain ⟨y, j', rfl, hy, hj'⟩ := inBox_cons_iff.1 hj
      obtain ⟨l, h1, h2, h3, h4⟩ := ih i' j' hi' hj'
      refine ⟨(d, x - y) :: l, by simp [h1], ?_, ?_, ?_⟩
      · simp only [List.map_cons, List.sum_cons, h2, offsetOf]; ring
      · intro a ha
        rcases List.mem_cons.1 ha with rfl | ha
        · simp only; rw [abs_le]; omega
        · exact h3 a ha
      · intro h
        have e1 := h (d, x - y) (by simp)
        have e2 := h4 (fun a ha => h a (by simp [ha]))
        simp only at e1
        rw [e2, show x = y by omega]
  obtain ⟨l, h1, h2, h3, h4⟩ := key s i j hi hj
  apply h4
  apply active_combination_zero _ _ h3 (by rw [h2, hij]; ring)
  · rw [← List.pairwise_map (f := Prod.fst) (R := Nested), h1]; exact hp
  · intro a ha
    exact hm a.1 (by rw [← h1]; exact List.mem_map.2 ⟨a, ha, rfl⟩)

/-! ### `resolve` preserves nesting -/

/-- Nesting among the known dims only. -/
def KNested (a b : Dim) : Prop := Known a → Known b → Nested a b

theorem KNested.symm {a b : Dim} (h : KNested a b) : KNested b a := fun hb ha => (h ha hb).symm

theorem fits_cons_unknown {done ds : List Dim} {d d' : Dim} {B : Int}
    (hu : ¬ Known d) (hk : Known d') :
    B * (((done ++ d :: ds).filter fun d => d.stride == -9223372036854775808).map
      fun d => max 1 d.extent).prod =
    (B * max 1 d.extent) * (((done ++ d' :: ds).filter
      fun d => d.stride == -9223372036854775808).map fun d => max 1 d.extent).prod := by
  have h1 : (d.stride == -9223372036854775808) = true := by simpa [Known] using hu
  have h2 : (d'.stride == -9223372036854775808) = false := by simpa [Known] using hk
  simp only [List.filter_append, List.filter_cons, h1, h2, if_true, List.map_append, List.map_cons,
    List.prod_append, List.prod_cons, Bool.false_eq_true, if_false]
  ring

theorem one_le_prod_max (l : List Dim) : 1 ≤ (l.map fun d => max 1 d.extent).prod := by
  induction l with
  | nil => simp
  | cons d l ih =>
    rw [List.map_cons, List.prod_cons]
    have : 1 ≤ max 1 d.extent := le_max_left _ _
    nlinarith

/-- What the loop keeps: known dims are nested, moving, and there is room. -/
def ResInv (all : List Dim) : Prop :=
  all.Pairwise KNested ∧ (∀ d ∈ all, Known d → Moving d) ∧ FitsIndex all

theorem resInv_step {done ds : List Dim} {d : Dim} (hI : ResInv (done ++ d :: ds)) :
    ResInv (done ++ resolveDim d (done ++ d :: ds) :: ds) := by
  by_cases hk : Known d
  · rwa [resolveDim_known _ hk]
  obtain ⟨hp, hmv, B, hB, hspan, hfit⟩ := hI
  have hpr := one_le_prod_max ((done ++ d :: ds).filter fun d => d.stride == -9223372036854775808)
  have hBm : B < indexMax := by unfold indexMax; nlinarith
  obtain ⟨f1, f2, f3, f4⟩ := findStride_spec hB hBm hspan d.extent
  have hkn := resolveDim_isKnown d (done ++ d :: ds)
  have he := resolveDim_extent d (done ++ d :: ds)
  have hst : (resolveDim d (done ++ d :: ds)).stride = findStride d.extent (done ++ d :: ds) := by
    rw [resolveDim_unknown _ hk]
  generalize resolveDim d (done ++ d :: ds) = d' at hkn he hst ⊢
  have habs : |d'.stride| = findStride d.extent (done ++ d :: ds) := by
    rw [hst, abs_of_nonneg (by omega)]
  have hnew : ∀ x ∈ done ++ d :: ds, KNested x d' := by
    intro x hx hxk _
    rcases (f4 x hx hxk).1 with h | h
    · left; rw [habs]; exact h
    · right; unfold span; rw [habs, he]; exact h
  refine ⟨?_, ?_, B * max 1 d.extent, ?_, ?_, ?_⟩
  · rw [List.pairwise_append, List.pairwise_cons] at hp ⊢
    obtain ⟨p1, ⟨p2, p3⟩, p4⟩ := hp
    refine ⟨p1, ⟨fun x hx => (hnew x (by simp [hx])).symm, p3⟩, ?_⟩
    intro x hx y hy
    rcases List.mem_cons.1 hy with rfl | hy
    · exact hnew x (by simp [hx])
    · exact p4 x hx y (by simp [hy])
  · intro x hx hxk
    have : x = d' ∨ x ∈ done ++ d :: ds := by
      simp only [List.mem_append, List.mem_cons] at hx ⊢; tauto
    rcases this with rfl | hx
    · intro _; rw [hst]; omega
    · exact hmv x hx hxk
  · have : 1 ≤ max 1 d.extent := le_max_left _ _
    nlinarith
  · intro x hx hxk
    have h1 : 1 ≤ max 1 d.extent := le_max_left _ _
    have : x = d' ∨ x ∈ done ++ d :: ds := by
      simp only [List.mem_append, List.mem_cons] at hx ⊢; tauto
    rcases this with rfl | hx
    · unfold span
      rw [habs, he]
      have h2 : d.extent ≤ max 1 d.extent := le_max_right _ _
      nlinarith
    · have := hspan x hx hxk; nlinarith
  · rw [← fits_cons_unknown hk hkn]; exact hfit

theorem resolve_resInv {s : Shape} (h : ResInv s) : ResInv s.resolve := by
  have := resolveLoop_invariant (fun done todo => ResInv (done ++ todo)) (by
    intro done d ds hI
    rw [List.append_assoc, List.singleton_append]
    exact resInv_step hI) s [] h
  rw [List.append_nil] at this
  exact this

theorem resolve_nested {s : Shape} (h : ResInv s) : List.Pairwise Nested s.resolve := by
  have h1 := (resolve_resInv h).1
  have hk := resolve_known s
  exact h1.imp_of_mem (fun ha hb hab => hab (hk _ ha) (hk _ hb))

theorem resolve_moving {s : Shape} (h : ResInv s) : ∀ d ∈ s.resolve, Moving d := fun d hd =>
  (resolve_resInv h).2.1 d hd (resolve_known s d hd)

/-! ### No stride known: prefix products -/

/-- Strides `c, c*e₀, c*e₀*e₁, …`. -/
def prodStrides : Int → List Dim → List Dim
  | _, [] => []
  | c, d :: ds => { d with stride := c } :: prodStrides (c * d.extent) ds

theorem prodStrides_append (c : Int) (a b : List Dim) :
    prodStrides c (a ++ b) =
      prodStrides c a ++ prodStrides (c * (a.map fun d => d.extent).prod) b := by
  induction a generalizing c with
  | nil => simp [prodStrides]
  | cons d a ih => simp [prodStrides, ih, mul_assoc]

theorem one_le_prod_extent {a : List Dim} (ha : Pos a) : 1 ≤ (a.map fun d => d.extent).prod := by
  induction a with
  | nil => simp
  | cons y a ih2 =>
    obtain ⟨hy, ha⟩ := pos_cons.1 ha
    rw [List.map_cons, List.prod_cons]
    have := ih2 ha
    nlinarith

theorem prodStrides_mem {c : Int} (hc : 1 ≤ c) {a : List Dim} (ha : Pos a) {d : Dim}
    (hd : d ∈ prodStrides c a) :
    c ≤ d.stride ∧ 1 ≤ d.extent ∧ span d ≤ c * (a.map fun d => d.extent).prod := by
  induction a generalizing c with
  | nil => simp [prodStrides] at hd
  | cons x a ih =>
    obtain ⟨hx, ha⟩ := pos_cons.1 ha
    have hpr := one_le_prod_extent ha
    rw [prodStrides] at hd
    rw [List.map_cons, List.prod_cons]
    rcases List.mem_cons.1 hd with rfl | hd
    · refine ⟨le_refl _, hx, ?_⟩
      unfold span
      simp only
      rw [abs_of_nonneg (by omega)]
      nlinarith [mul_pos (show 0 < x.extent by omega) (show 0 < c by omega)]
    · have hcx : c ≤ c * x.extent := by nlinarith
      obtain ⟨h1, h2, h3⟩ := ih (c := c * x.extent) (by omega) ha hd
      exact ⟨by omega, h2, by rw [← mul_assoc]; exact h3⟩

theorem prodStrides_known {c : Int} (hc : 1 ≤ c) {a : List Dim} (ha : Pos a) {d : Dim}
    (hd : d ∈ prodStrides c a) : Known d := by
  have := (prodStrides_mem hc ha hd).1
  unfold Known; omega

/-- While the product is still to grow, some dim has exactly this stride and extent above 1. -/
theorem prodStrides_blocker {c : Int} (hc : 1 ≤ c) {a : List Dim} (ha : Pos a)
    (h : c < c * (a.map fun d => d.extent).prod) :
    ∃ x ∈ prodStrides c a, x.stride = c ∧ 1 < x.extent := by
  induction a generalizing c with
  | nil => simp at h
  | cons x a ih =>
    obtain ⟨hx, ha⟩ := pos_cons.1 ha
    by_cases h1 : 1 < x.extent
    · exact ⟨{ x with stride := c }, by simp [prodStrides], rfl, h1⟩
    · have h2 : x.extent = 1 := by omega
      rw [List.map_cons, List.prod_cons, h2, one_mul] at h
      obtain ⟨y, hy, h3⟩ := ih hc ha h
      exact ⟨y, by simp [prodStrides, h2, hy], h3⟩

theorem prodStrides_blocker_span {c : Int} (hc : 1 ≤ c) {a : List Dim} (ha : Pos a) {y : Dim}
    (hy : y ∈ prodStrides c a) (h : span y < c * (a.map fun d => d.extent).prod) :
    ∃ x ∈ prodStrides c a, x.stride = span y ∧ 1 < x.extent := by
  induction a generalizing c with
  | nil => simp [prodStrides] at hy
  | cons x a ih =>
    obtain ⟨hx, ha⟩ := pos_cons.1 ha
    have hcx : 1 ≤ c * x.extent := by nlinarith
    rw [List.map_cons, List.prod_cons, ← mul_assoc] at h
    rw [prodStrides] at hy ⊢
    rcases List.mem_cons.1 hy with rfl | hy
    · have hs : span { x with stride := c } = c * x.extent := by
        unfold span; simp only; rw [abs_of_nonneg (by omega), mul_comm]
      rw [hs] at h ⊢
      obtain ⟨z, hz, h3⟩ := prodStrides_blocker hcx ha h
      exact ⟨z, by simp [hz], h3⟩
    · obtain ⟨z, hz, h3⟩ := ih hcx ha hy h
      exact ⟨z, by simp [hz], h3⟩

theorem prodStrides_last {c : Int} (hc : 1 ≤ c) {a : List Dim} (ha : Pos a) :
    (a = [] ∧ c * (a.map fun d => d.extent).prod = c) ∨
    ∃ y ∈ prodStrides c a, span y = c * (a.map fun d => d.extent).prod := by
  induction a generalizing c with
  | nil => left; simp
  | cons x a ih =>
    right
    obtain ⟨hx, ha⟩ := pos_cons.1 ha
    have hcx : 1 ≤ c * x.extent := by nlinarith
    rw [List.map_cons, List.prod_cons, ← mul_assoc, prodStrides]
    rcases ih hcx ha with ⟨h1, h2⟩ | ⟨y, hy, h⟩
    · refine ⟨{ x with stride := c }, by simp, ?_⟩
      rw [h2]; unfold span; simp only; rw [abs_of_nonneg (by omega), mul_comm]
    · exact ⟨y, by simp [hy], h⟩

theorem findStride_prod {a ds : List Dim} {e : Int} (ha : Pos a) (he : 1 ≤ e)
    (hds : ∀ x ∈ ds, ¬ Known x) (hfit : (a.map fun d => d.extent).prod ≤ indexMax) :
    findStride e (prodStrides 1 a ++ ds) = (a.map fun d => d.extent).prod := by
  set P := (a.map fun d => d.extent).prod with hP
  have hP1 : 1 ≤ P := one_le_prod_extent ha
  have hmem : P ∈ candidates (prodStrides 1 a ++ ds) := by
    rcases prodStrides_last (le_refl 1) ha with ⟨h1, h2⟩ | ⟨y, hy, h⟩
    · rw [one_mul, ← hP] at h2; rw [h2]; simp [candidates]
    · rw [one_mul, ← hP] at h
      refine List.mem_cons_of_mem _ (List.mem_map.2 ⟨y, by simp [hy], ?_⟩)
      rw [candidateStride_known (prodStrides_known (le_refl 1) ha hy), h, max_eq_right hP1]
  have hok : ∀ d ∈ prodStrides 1 a ++ ds, isStrideOk P e d = true := by
    intro d hd
    rcases List.mem_append.1 hd with hd | hd
    · have hk := prodStrides_known (le_refl 1) ha hd
      obtain ⟨h1, h2, h3⟩ := prodStrides_mem (le_refl 1) ha hd
      rw [one_mul, ← hP] at h3
      rw [isStrideOk_iff (by omega) hk]
      refine ⟨Or.inl h3, ?_⟩
      rintro ⟨_, h5, h6⟩
      unfold span at h3
      rw [← h5] at h3
      nlinarith
    · exact isStrideOk_of_unknown (hds d hd)
  have hle := findStride_le hmem hok
  rcases findStride_cases e (prodStrides 1 a ++ ds) with h | ⟨hm, hk⟩
  · omega
  · apply le_antisymm hle
    by_contra hlt
    push Not at hlt
    generalize findStride e (prodStrides 1 a ++ ds) = c at *
    have hc1 : 1 ≤ c := candidates_ge_one hm
    -- a dim with stride `c` and extent above 1
    have hb : ∃ x ∈ prodStrides 1 a, x.stride = c ∧ 1 < x.extent := by
      rcases List.mem_cons.1 hm with rfl | hm
      · exact prodStrides_blocker (le_refl 1) ha (by rw [one_mul]; exact hlt)
      · obtain ⟨y, hy, rfl⟩ := List.mem_map.1 hm
        rcases List.mem_append.1 hy with hy | hy
        · rw [candidateStride_known (prodStrides_known (le_refl 1) ha hy)] at hlt ⊢
          obtain ⟨h1, h2, _⟩ := prodStrides_mem (le_refl 1) ha hy
          have hsp : 1 ≤ span y := by
            unfold span; rw [abs_of_nonneg (by omega)]; nlinarith
          rw [max_eq_right hsp] at hlt ⊢
          exact prodStrides_blocker_span (le_refl 1) ha hy (by rw [one_mul]; exact hlt)
        · rw [candidateStride_unknown (hds y hy)] at hlt; omega
    obtain ⟨x, hx, hxs, hxe⟩ := hb
    have := (isStrideOk_iff (by omega) (prodStrides_known (le_refl 1) ha hx)).1
      (hk x (by simp [hx]))
    obtain ⟨h1, h2⟩ := this
    unfold span at h1
    rw [hxs, abs_of_nonneg (by omega)] at h1 h2
    rcases h1 with h1 | h1
    · nlinarith
    · apply h2
      refine ⟨?_, rfl, hxe⟩
      nlinarith

theorem resolveLoop_prod : ∀ (ds a : List Dim), Pos (a ++ ds) → (∀ x ∈ ds, ¬ Known x) →
    ((a ++ ds).map fun d => d.extent).prod ≤ indexMax →
    resolveLoop (prodStrides 1 a) ds = prodStrides 1 (a ++ ds) := by
  intro ds
  induction ds with
  | nil => intro a _ _ _; rw [List.append_nil]; rfl
  | cons d ds ih =>
    intro a hpos hu hfit
    have ha : Pos a := fun x hx => hpos x (by simp [hx])
    have hd : 0 < d.extent := hpos d (by simp)
    rw [resolveLoop_cons, resolveDim_unknown _ (hu d (by simp))]
    have hfa : (a.map fun d => d.extent).prod ≤ indexMax := by
      rw [List.map_append, List.prod_append] at hfit
      have h1 := one_le_prod_extent ha
      have h2 := one_le_prod_extent (a := d :: ds) (fun x hx => hpos x (List.mem_append_right _ hx))
      nlinarith
    rw [findStride_prod ha hd hu hfa]
    have := ih (a ++ [d]) (by simpa using hpos) (fun x hx => hu x (by simp [hx]))
      (by simpa using hfit)
    rw [List.append_assoc, List.singleton_append] at this
    rw [← this, prodStrides_append, one_mul]
    rfl

theorem resolve_prod {s : Shape} (hpos : Pos s) (hu : ∀ x ∈ s, ¬ Known x)
    (hfit : (List.map (fun d => d.extent) s).prod ≤ indexMax) : s.resolve = prodStrides 1 s := by
  have := resolveLoop_prod s [] (by simpa using hpos) hu (by simpa using hfit)
  exact this

theorem prodStrides_pos {c : Int} {a : List Dim} (ha : Pos a) : Pos (prodStrides c a) := by
  induction a generalizing c with
  | nil => exact ha
  | cons x a ih =>
    obtain ⟨hx, ha⟩ := pos_cons.1 ha
    exact pos_cons.2 ⟨hx, ih ha⟩

/-- Every offset below the product is reached (mixed radix). -/
theorem prodStrides_surj {c : Int} (hc : 1 ≤ c) {a : List Dim} (ha : Pos a) (o : Int) (ho : 0 ≤ o)
    (hlt : o < (a.map fun d => d.extent).prod) :
    ∃ i, InBox (prodStrides c a) i ∧ offsetOf (prodStrides c a) i = c * o := by
  induction a generalizing c o with
  | nil => exact ⟨[], trivial, by simp at hlt; simp [offsetOf, prodStrides]; right; omega⟩
  | cons x a ih =>
    obtain ⟨hx, ha⟩ := pos_cons.1 ha
    rw [List.map_cons, List.prod_cons] at hlt
    have hcx : 1 ≤ c * x.extent := by nlinarith
    obtain ⟨i, hi, he⟩ := ih hcx ha (o / x.extent) (Int.ediv_nonneg ho (by omega))
      (Int.ediv_lt_of_lt_mul hx (by rw [mul_comm]; exact hlt))
    have h1 := Int.emod_nonneg o (show x.extent ≠ 0 by omega)
    have h2 := Int.emod_lt_of_pos o hx
    refine ⟨(x.min + o % x.extent) :: i, ?_, ?_⟩
    · exact ⟨⟨by simp only; omega, by simp only; omega⟩, hi⟩
    · simp only [prodStrides, offsetOf]
      rw [he]
      have := Int.emod_add_mul_ediv o x.extent
      calc (x.min + o % x.extent - x.min) * c + c * x.extent * (o / x.extent)
          = c * (o % x.extent + x.extent * (o / x.extent)) := by ring
        _ = c * o := by rw [this]

end Nda

namespace Nda
open Spec

theorem fits_step {done ds : List Dim} {d : Dim} (hI : FitsIndex (done ++ d :: ds)) :
    FitsIndex (done ++ resolveDim d (done ++ d :: ds) :: ds) := by
  by_cases hk : Known d
  · rwa [resolveDim_known _ hk]
  obtain ⟨B, hB, hspan, hfit⟩ := hI
  have hpr := one_le_prod_max ((done ++ d :: ds).filter fun d => d.stride == -9223372036854775808)
  have hBm : B < indexMax := by unfold indexMax; nlinarith
  obtain ⟨f1, f2, f3, f4⟩ := findStride_spec hB hBm hspan d.extent
  have hkn := resolveDim_isKnown d (done ++ d :: ds)
  have he := resolveDim_extent d (done ++ d :: ds)
  have hst : (resolveDim d (done ++ d :: ds)).stride = findStride d.extent (done ++ d :: ds) := by
    rw [resolveDim_unknown _ hk]
  generalize resolveDim d (done ++ d :: ds) = d' at hkn he hst ⊢
  have habs : |d'.stride| = findStride d.extent (done ++ d :: ds) := by
    rw [hst, abs_of_nonneg (by omega)]
  have h1 : 1 ≤ max 1 d.extent := le_max_left _ _
  refine ⟨B * max 1 d.extent, by nlinarith, ?_, ?_⟩
  · intro x hx hxk
    have : x = d' ∨ x ∈ done ++ d :: ds := by
      simp only [List.mem_append, List.mem_cons] at hx ⊢; tauto
    rcases this with rfl | hx
    · unfold span
      rw [habs, he]
      have h2 : d.extent ≤ max 1 d.extent := le_max_right _ _
      nlinarith
    · have := hspan x hx hxk; nlinarith
  · rw [← fits_cons_unknown hk hkn]; exact hfit

theorem resolveLoop_prefix (todo done : List Dim) : ∃ r, resolveLoop done todo = done ++ r := by
  induction todo generalizing done with
  | nil => exact ⟨[], by simp [resolveLoop]⟩
  | cons d ds ih =>
    rw [resolveLoop_cons]
    obtain ⟨r, hr⟩ := ih (done ++ [resolveDim d (done ++ d :: ds)])
    exact ⟨_, by rw [hr, List.append_assoc]⟩

theorem resolveLoop_split (a done : List Dim) (d : Dim) (b : List Dim) :
    ∃ done' r, done'.length = done.length + a.length ∧
      (FitsIndex (done ++ (a ++ d :: b)) → FitsIndex (done' ++ d :: b)) ∧
      resolveLoop done (a ++ d :: b) = done' ++ resolveDim d (done' ++ d :: b) :: r := by
  induction a generalizing done with
  | nil =>
    obtain ⟨r, hr⟩ := resolveLoop_prefix b (done ++ [resolveDim d (done ++ d :: b)])
    exact ⟨done, r, by simp, fun h => h, by
      rw [List.nil_append, resolveLoop_cons, hr, List.append_assoc, List.singleton_append]⟩
  | cons x a ih =>
    obtain ⟨done', r, h1, h2, h3⟩ := ih (done ++ [resolveDim x (done ++ x :: (a ++ d :: b))])
    refine ⟨done', r, by simp at h1 ⊢; omega, ?_, ?_⟩
    · intro h
      apply h2
      rw [List.append_assoc, List.singleton_append]
      exact fits_step h
    · rw [List.cons_append, resolveLoop_cons, h3]

end Nda
