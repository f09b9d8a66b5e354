import Verif.Model.Core
import Verif.Spec.Box
import Mathlib.Tactic.Ring
import Mathlib.Tactic.Linarith
import Mathlib.Algebra.BigOperators.Group.List.Basic
import Mathlib.Algebra.Order.Group.Abs
import Mathlib.Algebra.Order.Ring.Int
import Mathlib.Algebra.Order.Ring.Abs
import Mathlib.Algebra.Order.BigOperators.Group.List

namespace Nda
open Spec

theorem iabs_eq (x : Int) : iabs x = |x| := by
  unfold iabs; split
  · exact (abs_of_nonneg (by omega)).symm
  · exact (abs_of_neg (by omega)).symm

theorem imax_eq (a b : Int) : imax a b = max a b := by unfold imax; split <;> omega
theorem imin_eq (a b : Int) : imin a b = min a b := by unfold imin; split <;> omega

theorem sum_eq : ∀ l : List Int, Nda.sum l = l.sum
  | [] => rfl
  | [x0] => by simp [Nda.sum]
  | [x0, x1] => by simp [Nda.sum]
  | [x0, x1, x2] => by simp [Nda.sum, add_assoc]
  | x0 :: x1 :: x2 :: x3 :: rest => by
    rw [Nda.sum, sum_eq rest]; simp [add_assoc]

theorem product_eq : ∀ l : List Int, Nda.product l = l.prod
  | [] => rfl
  | x :: rest => by rw [product, product_eq rest, List.prod_cons]

theorem sum_nonneg_eq_zero : ∀ l : List Int, (∀ x ∈ l, 0 ≤ x) → (l.sum = 0 ↔ ∀ x ∈ l, x = 0)
  | [], _ => by simp
  | x :: l, h => by
    have hx : 0 ≤ x := h x (by simp)
    have hl : ∀ y ∈ l, 0 ≤ y := fun y hy => h y (by simp [hy])
    have ih := sum_nonneg_eq_zero l hl
    have hs : 0 ≤ l.sum := List.sum_nonneg hl
    simp only [List.sum_cons, List.mem_cons, forall_eq_or_imp, ← ih]
    omega

theorem all_iff (bs : List Bool) : Nda.all bs = true ↔ ∀ b ∈ bs, b = true := by
  unfold Nda.all
  rw [beq_iff_eq, sum_eq, sum_nonneg_eq_zero]
  · simp only [List.mem_map, forall_exists_index, and_imp]
    constructor
    · intro h b hb
      have := h _ b hb rfl
      revert this; cases b <;> simp
    · intro h x b hb hx
      rw [← hx, h b hb]; rfl
  · simp only [List.mem_map, forall_exists_index, and_imp]
    intro x b _ hx; rw [← hx]; split <;> omega

theorem any_iff (bs : List Bool) : Nda.any bs = true ↔ ∃ b ∈ bs, b = true := by
  unfold Nda.any
  rw [bne_iff_ne, ne_eq, sum_eq, sum_nonneg_eq_zero]
  · simp only [List.mem_map, forall_exists_index, and_imp]
    constructor
    · intro h
      by_contra hc
      apply h
      intro x b hb hx
      have : b ≠ true := fun hbt => hc ⟨b, hb, hbt⟩
      rw [← hx, if_neg this]
    · rintro ⟨b, hb, hbt⟩ h
      have := h _ b hb rfl
      rw [if_pos hbt] at this
      omega
  · simp only [List.mem_map, forall_exists_index, and_imp]
    intro x b _ hx; rw [← hx]; split <;> omega

theorem flatOffset_eq : ∀ (s : Shape) (idx : Index), s.flatOffset idx = offsetOf s idx := by
  intro s
  unfold Shape.flatOffset
  simp only [sum_eq]
  induction s with
  | nil => intro idx; simp [offsetOf]
  | cons d ds ih =>
    intro idx
    cases idx with
    | nil => simp [offsetOf]
    | cons i is => simp [offsetOf, ih is, Dim.flatOffset]

theorem inBox_length : ∀ {s : List Dim} {idx : List Int}, InBox s idx → idx.length = s.length
  | [], [], _ => rfl
  | _ :: _, _ :: _, h => by simp [inBox_length h.2]
  | [], _ :: _, h => h.elim
  | _ :: _, [], h => h.elim

theorem inBox_cons {d : Dim} {ds : List Dim} {i : Int} {is : List Int} :
    InBox (d :: ds) (i :: is) ↔ (d.min ≤ i ∧ i < d.min + d.extent) ∧ InBox ds is := Iff.rfl

theorem inBox_nil {l : List Int} : InBox [] l ↔ l = [] := by
  cases l <;> simp [InBox]

theorem inBox_cons_iff {d : Dim} {ds : List Dim} {l : List Int} :
    InBox (d :: ds) l ↔ ∃ i is, l = i :: is ∧ (d.min ≤ i ∧ i < d.min + d.extent) ∧ InBox ds is := by
  cases l with
  | nil => simp [InBox]
  | cons i is => simp [InBox]

theorem Dim.isInRange_iff (d : Dim) (i : Int) :
    d.isInRange i = true ↔ d.min ≤ i ∧ i < d.min + d.extent := by
  simp only [Dim.isInRange, Bool.and_eq_true, decide_eq_true_eq]; unfold Dim.max; omega

theorem isInRange_iff : ∀ (s : Shape) (idx : Index), idx.length = s.length →
    (s.isInRange idx = true ↔ InBox s idx) := by
  intro s idx
  unfold Shape.isInRange
  rw [all_iff]
  induction s generalizing idx with
  | nil => intro h; cases idx with
    | nil => simp [InBox]
    | cons => simp at h
  | cons d ds ih =>
    intro h
    cases idx with
    | nil => simp at h
    | cons i is =>
      simp only [List.zipWith_cons_cons, List.mem_cons, forall_eq_or_imp, inBox_cons,
        Dim.isInRange_iff]
      rw [ih is (by simpa using h)]

theorem offsetOf_mins : ∀ s : List Dim, offsetOf s (s.map Dim.min) = 0
  | [] => rfl
  | d :: ds => by simp [offsetOf, offsetOf_mins ds]

theorem nonNeg_cons {d : Dim} {ds : List Dim} : NonNeg (d :: ds) ↔ 0 ≤ d.extent ∧ NonNeg ds := by
  simp [NonNeg]

theorem pos_cons {d : Dim} {ds : List Dim} : Pos (d :: ds) ↔ 0 < d.extent ∧ Pos ds := by
  simp [Pos]

theorem Spec.Pos.nonNeg {s : List Dim} (h : Pos s) : NonNeg s := fun d hd => (h d hd).le

theorem flatMin_eq (s : Shape) :
    s.flatMin = (s.map fun d => (d.extent - 1) * min 0 d.stride).sum := by
  simp [Shape.flatMin, sum_eq, imin_eq]

theorem flatMax_eq (s : Shape) :
    s.flatMax = (s.map fun d => (d.extent - 1) * max 0 d.stride).sum := by
  simp [Shape.flatMax, sum_eq, imax_eq]

theorem flatMin_cons (d : Dim) (s : Shape) :
    Shape.flatMin (d :: s) = (d.extent - 1) * min 0 d.stride + Shape.flatMin s := by
  simp [flatMin_eq]

theorem flatMax_cons (d : Dim) (s : Shape) :
    Shape.flatMax (d :: s) = (d.extent - 1) * max 0 d.stride + Shape.flatMax s := by
  simp [flatMax_eq]

@[simp] theorem flatMin_nil : Shape.flatMin [] = 0 := rfl
@[simp] theorem flatMax_nil : Shape.flatMax [] = 0 := rfl

theorem flatExtent_eq (s : Shape) : s.flatExtent = (s.flatMax - s.flatMin + 1).toNat := by
  unfold Shape.flatExtent
  simp only
  split <;> omega

theorem size_eq (s : Shape) : s.size = (s.map Dim.extent).prod.toNat := by
  unfold Shape.size Shape.extents
  simp only [product_eq]
  split <;> omega

end Nda
