import Verif.Model.Image
import Verif.Spec.Image
import Verif.Spec.Strides
import Verif.Lemmas.InOrder
import Verif.Lemmas.Resolve
import Verif.Lemmas.Views
/-
Closed forms of the matrix and image loops.
-/
namespace Nda
open Spec

theorem accesses_some (s : Shape) (b : Int) (l : List Index) :
    accesses s (some b) l = some (l.map fun i => b + offsetOf s i) := by
  unfold accesses
  rw [forBody_some _ (fun i => [b + offsetOf s i])]
  · rw [← List.flatMap_pure_eq_map]; rfl
  · intro i _; simp [flatOffset_eq]

/-- indices of a matrix in row major order -/
def matrixList (di dj : Dim) : List Index :=
  (ints di.min di.extent).flatMap fun i => (ints dj.min dj.extent).map fun j => [i, j]

theorem forEachMatrixIndex_eq {di dj : Dim} (h : NonNeg [di, dj]) :
    forEachMatrixIndex [di, dj] = some (matrixList di dj) := by
  unfold forEachMatrixIndex
  dsimp only
  rw [Dim.iterate_eq (h di (by simp)), Dim.iterate_eq (h dj (by simp))]
  simp only [Option.bind_eq_bind, Option.bind_some]
  refine forBody_some _ _ _ fun i _ => ?_
  rw [forBody_some _ _ _ (fun j _ => rfl), ← List.flatMap_pure_eq_map]
  rfl

/-- indices of an image, c fastest, then x -/
def imageList (dx dy dc : Dim) : List Index :=
  (ints dy.min dy.extent).flatMap fun y => (ints dx.min dx.extent).flatMap fun x =>
    (ints dc.min dc.extent).map fun c => [x, y, c]

theorem forEachImageIndex_eq {dx dy dc : Dim} (h : NonNeg [dx, dy, dc]) :
    forEachImageIndex [dx, dy, dc] = some (imageList dx dy dc) := by
  unfold forEachImageIndex
  dsimp only
  rw [Dim.iterate_eq (h dx (by simp)), Dim.iterate_eq (h dy (by simp)), Dim.iterate_eq (h dc (by simp))]
  simp only [Option.bind_eq_bind, Option.bind_some]
  refine forBody_some _ _ _ fun y _ => ?_
  refine forBody_some _ _ _ fun x _ => ?_
  rw [forBody_some _ _ _ (fun c _ => rfl), ← List.flatMap_pure_eq_map]
  rfl

theorem mem_matrixList {di dj : Dim} {i : Index} : i ∈ matrixList di dj ↔ InBox [di, dj] i := by
  simp only [matrixList, List.mem_flatMap, List.mem_map, mem_ints, inBox_cons_iff, inBox_nil]
  constructor
  · rintro ⟨x, hx, y, hy, rfl⟩; exact ⟨x, [y], rfl, hx, y, [], rfl, hy, rfl⟩
  · rintro ⟨x, _, rfl, hx, y, _, rfl, hy, rfl⟩; exact ⟨x, hx, y, hy, rfl⟩

theorem mem_imageList {dx dy dc : Dim} {i : Index} :
    i ∈ imageList dx dy dc ↔ InBox [dx, dy, dc] i := by
  simp only [imageList, List.mem_flatMap, List.mem_map, mem_ints, inBox_cons_iff, inBox_nil]
  constructor
  · rintro ⟨y, hy, x, hx, c, hc, rfl⟩; exact ⟨x, [y, c], rfl, hx, y, [c], rfl, hy, c, [], rfl, hc, rfl⟩
  · rintro ⟨x, _, rfl, hx, y, _, rfl, hy, c, _, rfl, hc, rfl⟩; exact ⟨y, hy, x, hx, c, hc, rfl⟩

theorem matrixList_pairwise (di dj : Dim) : (matrixList di dj).Pairwise RowMajorLt := by
  unfold matrixList
  rw [List.pairwise_flatMap]
  refine ⟨fun i _ => ?_, ?_⟩
  · rw [List.pairwise_map]
    exact (ints_pairwise _ _).imp fun h => ⟨_, _, _, _, rfl, rfl, .inr ⟨rfl, h⟩⟩
  · refine (ints_pairwise _ _).imp fun h => ?_
    simp only [List.mem_map]
    rintro _ ⟨j, _, rfl⟩ _ ⟨j', _, rfl⟩
    exact ⟨_, _, _, _, rfl, rfl, .inl h⟩

theorem imageList_pairwise (dx dy dc : Dim) : (imageList dx dy dc).Pairwise ImageLt := by
  unfold imageList
  rw [List.pairwise_flatMap]
  refine ⟨fun y _ => ?_, ?_⟩
  · rw [List.pairwise_flatMap]
    refine ⟨fun x _ => ?_, ?_⟩
    · rw [List.pairwise_map]
      exact (ints_pairwise _ _).imp fun h => ⟨_, _, _, _, _, _, rfl, rfl, .inr ⟨rfl, .inr ⟨rfl, h⟩⟩⟩
    · refine (ints_pairwise _ _).imp fun h => ?_
      simp only [List.mem_map]
      rintro _ ⟨j, _, rfl⟩ _ ⟨j', _, rfl⟩
      exact ⟨_, _, _, _, _, _, rfl, rfl, .inr ⟨rfl, .inl h⟩⟩
  · refine (ints_pairwise _ _).imp fun h => ?_
    simp only [List.mem_flatMap, List.mem_map]
    rintro _ ⟨x, _, j, _, rfl⟩ _ ⟨x', _, j', _, rfl⟩
    exact ⟨_, _, _, _, _, _, rfl, rfl, .inl h⟩

theorem RowMajorLt.ne {a b : Index} (h : RowMajorLt a b) : a ≠ b := by
  obtain ⟨i, j, i', j', rfl, rfl, h⟩ := h
  intro e; simp only [List.cons.injEq, and_true] at e; omega

theorem ImageLt.ne {a b : Index} (h : ImageLt a b) : a ≠ b := by
  obtain ⟨x, y, c, x', y', c', rfl, rfl, h⟩ := h
  intro e; simp only [List.cons.injEq, and_true] at e; omega

theorem matrixList_enumerates (di dj : Dim) : Enumerates [di, dj] (matrixList di dj) :=
  ⟨(matrixList_pairwise di dj).imp RowMajorLt.ne, fun _ => mem_matrixList⟩

theorem imageList_enumerates (dx dy dc : Dim) : Enumerates [dx, dy, dc] (imageList dx dy dc) :=
  ⟨(imageList_pairwise dx dy dc).imp ImageLt.ne, fun _ => mem_imageList⟩

/-- `m*n` steps of one loop are `m` times `n` steps. -/
theorem range_mul_flatMap (m n : Nat) :
    List.range (m * n) = (List.range m).flatMap fun i => (List.range n).map fun j => i * n + j := by
  induction m with
  | zero => simp
  | succ m ih =>
    rw [Nat.succ_mul, List.range_add, ih, List.range_succ, List.flatMap_append]
    simp

/-- The fused loop over x and c visits the same addresses in the same order as the loop nest. -/
theorem fused_eq {dx dy dc : Dim} (hx : dx.stride = dc.extent) (hc : dc.stride = 1)
    (h : NonNeg [dx, dy, dc]) (b : Int) :
    Shape.forEachValueInOrder [⟨dx.min * dc.extent, dx.extent * dc.extent, 1⟩, dy] (some b) =
      (imageList dx dy dc).map fun i => b + offsetOf [dx, dy, dc] i := by
  have h1 : 0 ≤ dx.extent := h dx (by simp)
  have h2 : 0 ≤ dc.extent := h dc (by simp)
  rw [forEachValueInOrder_eq]
  unfold imageList
  simp only [boxList, List.flatMap_cons, List.flatMap_nil, List.append_nil, List.map_flatMap,
    List.flatMap_map]
  apply List.flatMap_congr
  intro y _
  simp only [ints]
  rw [Int.toNat_mul h1 h2, range_mul_flatMap]
  simp only [List.map_flatMap, List.flatMap_map, List.map_map]
  apply List.flatMap_congr
  intro i _
  apply List.map_congr_left
  intro j _
  simp only [Function.comp, offsetOf, hx, hc]
  push_cast
  rw [Int.toNat_of_nonneg h2]
  ring

end Nda
