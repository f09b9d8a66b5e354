import Verif.Lemmas.Values
import Mathlib.Tactic.Ring
import Mathlib.Tactic.Abel
import Mathlib.Algebra.Module.Prod
/-
The order in which `for_each_value_in_order` visits addresses.
-/
namespace Nda
open Spec

section
variable {P : Type} [AddCommGroup P]

/-- Addresses of a loop nest, outermost dim first. -/
def addrNest : List (Int × P) → P → List P
  | [], p => [p]
  | (e, st) :: rest, p => (List.range e.toNat).flatMap fun k => addrNest rest (p + k • st)

variable [PtrPack P] [LawfulPtrPack P]

theorem valueLoop_nest (dims : List (Int × P)) (p : P) : valueLoop dims p = addrNest dims p := by
  induction dims generalizing p with
  | nil => rfl
  | cons d rest ih =>
    obtain ⟨e, st⟩ := d
    have key : ∀ q, strideLoop (valueLoop rest) st e.toNat q = addrNest ((e, st) :: rest) q := by
      intro q
      rw [strideLoop_eq, addrNest]
      simp only [ih]
    cases rest with
    | cons d2 rest => exact key p
    | nil =>
      rw [valueLoop]
      split
      · rw [denseLoop_eq (by assumption) e.toNat p _ (by omega)]
        simp only [addrNest]
        exact (List.flatMap_pure_eq_map _ _).symm
      · exact key p
end

section
variable {P : Type} [AddCommGroup P]

/-- Pointer offset of an index for dims with pointer-pack strides. -/
def packOffset : List (Dim × P) → Index → P
  | (d, st) :: l, i :: is => (i - d.min) • st + packOffset l is
  | _, _ => 0

theorem packOffset_append (l : List (Dim × P)) (d : Dim) (st : P) (i : Index) (x : Int)
    (h : i.length = l.length) :
    packOffset (l ++ [(d, st)]) (i ++ [x]) = packOffset l i + (x - d.min) • st := by
  induction l generalizing i with
  | nil =>
    cases i with
    | nil => simp [packOffset]
    | cons => simp at h
  | cons e l ih =>
    cases i with
    | nil => simp at h
    | cons y i =>
      simp only [List.cons_append, packOffset]
      rw [ih i (by simpa using h)]; abel

theorem addrNest_eq (t : List (Dim × P)) (p : P) :
    addrNest (t.map fun d => (d.1.extent, d.2)) p =
      (boxList (t.map Prod.fst).reverse).map fun i => p + packOffset t.reverse i := by
  induction t generalizing p with
  | nil => simp [addrNest, boxList, packOffset]
  | cons d t ih =>
    obtain ⟨d, st⟩ := d
    rw [List.map_cons, addrNest, List.reverse_cons, List.map_cons, List.reverse_cons,
      boxList_append_singleton, List.map_flatMap, ints, List.flatMap_map]
    apply List.flatMap_congr
    intro k _
    rw [ih, List.map_map]
    apply List.map_congr_left
    intro i hi
    rw [Function.comp, packOffset_append _ _ _ _ _ (by
      rw [inBox_length (mem_boxList.1 hi)]; simp)]
    simp only [add_sub_cancel_left, natCast_zsmul]
    abel
end

theorem packOffset_single (s : Shape) (i : Index) :
    packOffset (List.map (fun d => (d, d.stride)) s) i = offsetOf s i := by
  induction s generalizing i with
  | nil => cases i <;> rfl
  | cons d s ih =>
    cases i with
    | nil => rfl
    | cons x i => simp only [List.map_cons, packOffset, offsetOf, ih]; simp

theorem forEachValueInOrder_eq (s : Shape) (b : Int) :
    s.forEachValueInOrder (some b) = (boxList s).map fun i => b + offsetOf s i := by
  unfold Shape.forEachValueInOrder
  simp only [valueLoop_nest]
  have h := addrNest_eq (List.map (fun d : Dim => (d, d.stride)) (List.reverse s)) b
  rw [List.map_map, List.map_map, ← List.map_reverse] at h
  simp only [Function.comp_def, List.map_id', List.reverse_reverse] at h
  rw [← List.map_reverse, h]
  apply List.map_congr_left
  intro i _
  rw [packOffset_single]

theorem packOffset_pair (s sa sb : Shape) (ha : List.length sa = List.length s)
    (hb : List.length sb = List.length s) (i : Index) (hi : i.length = List.length s) :
    (offsetOf sa (List.map Dim.min s), offsetOf sb (List.map Dim.min s)) +
      packOffset (List.zip s (List.zip (List.map Dim.stride sa) (List.map Dim.stride sb))) i =
      (offsetOf sa i, offsetOf sb i) := by
  induction s generalizing sa sb i with
  | nil =>
    obtain rfl := List.length_eq_zero_iff.1 ha
    obtain rfl := List.length_eq_zero_iff.1 hb
    obtain rfl := List.length_eq_zero_iff.1 hi
    simp [packOffset, offsetOf]
  | cons d s ih =>
    match sa, sb, i, ha, hb, hi with
    | a :: sa, b :: sb, x :: i, ha, hb, hi =>
      have := ih sa sb (by simpa using ha) (by simpa using hb) i (by simpa using hi)
      simp only [Prod.ext_iff, Prod.fst_add, Prod.snd_add] at this
      simp only [List.map_cons, List.zip_cons_cons, packOffset, offsetOf, Prod.ext_iff, Prod.fst_add,
        Prod.snd_add, Prod.smul_fst, Prod.smul_snd, smul_eq_mul]
      constructor
      · rw [← this.1]; ring
      · rw [← this.2]; ring

theorem forEachValueInOrder2_eq (s sa sb : Shape) (ha : List.length sa = List.length s)
    (hb : List.length sb = List.length s) (a b : Int) :
    Shape.forEachValueInOrder2 s sa (some a) sb (some b) =
      (boxList s).map fun i => (a + offsetOf sa i, b + offsetOf sb i) := by
  unfold Shape.forEachValueInOrder2
  simp only [valueLoop_nest, Shape.extents, Shape.strides, Shape.mins, flatOffset_eq]
  have h := addrNest_eq (List.zip s (List.zip (List.map Dim.stride sa) (List.map Dim.stride sb))).reverse
    ((a + offsetOf sa (List.map Dim.min s), b + offsetOf sb (List.map Dim.min s)) : Int × Int)
  rw [List.map_reverse, List.map_reverse, List.reverse_reverse, List.reverse_reverse,
    List.map_fst_zip (by simp [ha, hb])] at h
  rw [show (List.map (fun d : Dim × Int × Int => (d.1.extent, d.2))
      (List.zip s (List.zip (List.map Dim.stride sa) (List.map Dim.stride sb)))) =
      List.zip (List.map Dim.extent s) (List.zip (List.map Dim.stride sa) (List.map Dim.stride sb)) from by
    generalize List.zip (List.map Dim.stride sa) (List.map Dim.stride sb) = l
    rw [List.zip_map_left]; rfl] at h
  rw [h]
  apply List.map_congr_left
  intro i hi
  have := packOffset_pair s sa sb ha hb i (inBox_length (mem_boxList.1 hi))
  simp only [Prod.ext_iff, Prod.fst_add, Prod.snd_add] at this ⊢
  constructor
  · rw [← this.1]; ring
  · rw [← this.2]; ring

end Nda
