import Verif.Props.LinearAlgebra
/-
C53: `multiply_reduce_tiles_z_order` in examples/linear_algebra/matrix.cpp.
-/
namespace Nda
open Spec
variable {F : Type} (o : ScalarOps F) (A B C : Image2) (a b c : Int) (m : Mem F)

section
variable (tileRows tileCols buf : Int)

/-- C53: what `multiply_reduce_tiles_z_order` computes, with at least a tile of rows and of columns, and at
least one `k`: the sum over the first block of `k`, and for each other block its sum, added once for every
tile that has the element. -/
theorem C53_z_order (debug : Bool) (tileK : Int) (h : Multipliable A B C a b c) (hr : 0 < tileRows)
    (hc : 0 < tileCols) (hk : 0 < tileK) (hb : BufferFree A B C a b c buf (tileRows * tileCols))
    (hi : tileRows ≤ C.i.val.extent) (hj : tileCols ≤ C.j.val.extent) (hK : 0 < A.j.val.extent) :
    ∃ m', multiplyReduceTilesZOrder o debug tileRows tileCols tileK buf A B C m = some m' ∧
      (∀ i j, inDim C.i i → inDim C.j j → m' (elementAddress C c i j) =
        (blocks tileK A.j.val.toInterval).tail.foldl (fun s ko =>
          addTimes o (tileCount tileRows C.i i * tileCount tileCols C.j j) (dotFrom o A B a b m ko o.zero i j) s)
          (dotFrom o A B a b m ⟨A.j.val.min, min tileK A.j.val.extent⟩ o.zero i j)) ∧
      ∀ p, ¬ ElementOf C c p → ¬ (buf ≤ p ∧ p < buf + tileRows * tileCols) → m' p = m p := by
  classical
  obtain ⟨W, hW⟩ := exists_term h.mulView o m
  obtain ⟨mult, hmult⟩ := exists_byAddress (0 : Nat) (elementAddress C c) C.i.val.toInterval C.j.val.toInterval
    (fun i j => tileCount tileRows C.i i * tileCount tileCols C.j j) h.injective
  obtain ⟨m', e, h'⟩ := zOrder_spec h hb debug hr hc hk hi hj hK m hW hmult
  refine ⟨m', e, fun i j hi hj => ?_, fun p hp hbuf => ?_⟩
  · have he : ElementOf C c (elementAddress C c i j) := ⟨i, j, hi, hj, rfl⟩
    rw [h' _ (fun hbuf => (hb _ hbuf.1 hbuf.2).2.2 he), if_pos he, hmult i j hi hj, valueOf_eq hW _ hi hj]
    refine List.foldl_ext _ _ _ fun s ko _ => ?_
    rw [valueOf_eq hW _ hi hj]
  · rw [h' p hbuf, if_neg hp]

/-- C53, partial: `multiply_reduce_tiles_z_order` computes the product if addition is associative and the tiles
do not overlap, or there is only one block of `k`. The full statement, which the code does not satisfy, is this
one without `hK` and `hd`, and with `Splittable` for `hi` and `hj` as in `C52_reduce_tiles`. -/
theorem C53_product_partial (debug : Bool) (tileK : Int) (h : Multipliable A B C a b c) (hr : 0 < tileRows)
    (hc : 0 < tileCols) (hk : 0 < tileK) (hb : BufferFree A B C a b c buf (tileRows * tileCols))
    (hi : tileRows ≤ C.i.val.extent) (hj : tileCols ≤ C.j.val.extent) (hK : 0 < A.j.val.extent)
    (hassoc : ∀ x y z, o.add (o.add x y) z = o.add x (o.add y z)) (hzero : ∀ x, o.add x o.zero = x)
    (hd : (tileRows ∣ C.i.val.extent ∧ tileCols ∣ C.j.val.extent) ∨ A.j.val.extent ≤ tileK) :
    ∃ m', multiplyReduceTilesZOrder o debug tileRows tileCols tileK buf A B C m = some m' ∧
      IsProduct o A B C a b c buf (tileRows * tileCols) m m' := by
  obtain ⟨m', e, h1, h2⟩ := C53_z_order o A B C a b c m tileRows tileCols buf debug tileK h hr hc hk hb hi hj hK
  refine ⟨m', e, fun i j hi hj => ?_, h2⟩
  rw [h1 i j hi hj]
  rcases hd with ⟨hd1, hd2⟩ | hd
  · have hone : tileCount tileRows C.i i * tileCount tileCols C.j j = 1 := by
      rw [tileCount_of_dvd hr hd1, tileCount_of_dvd hc hd2]
    rw [hone]
    exact dot_blocks hk hK hassoc hzero
  · have e0 : blocks tileK A.j.val.toInterval = dynPieces tileK A.j.val.min A.j.val.extent := rfl
    rw [e0, dynPieces_step hk hK, List.tail_cons, min_eq_right hd, sub_self, dynPieces_nil hk]
    rfl

/-- C53, negative part: without any `k`, `multiply_reduce_tiles_z_order` does not write to `C`. -/
theorem C53_empty_counterexample (debug : Bool) (tileK : Int) (hk : 0 < tileK) (hK : A.j.val.extent = 0) :
    multiplyReduceTilesZOrder o debug tileRows tileCols tileK buf A B C m = some m := by
  unfold multiplyReduceTilesZOrder
  rw [dynIterate hk (by show 0 ≤ A.j.val.extent; omega)]
  have : dynPieces tileK A.j.val.toInterval.min A.j.val.toInterval.extent = [] := by
    show dynPieces tileK A.j.val.min A.j.val.extent = []
    rw [hK, dynPieces_nil hk]
  rw [this]
  rfl

end

/-- C53, negative part: a `5 x 257` and a `257 x 24` matrix of ones, with the tile sizes of the code for
`float`: element `(1, 0)` of the result is 258 instead of 257, since rows 1 to 3 are in two tiles. -/
theorem C53_overlap_counterexample (debug : Bool) :
    let A := denseMatrix 0 5 257
    let B := denseMatrix 2000 257 24
    let C := denseMatrix 10000 5 24
    Multipliable A B C 0 2000 10000 ∧ BufferFree A B C 0 2000 10000 20000 (4 * 24) ∧
    ∃ m', multiplyReduceTilesZOrder intOps debug 4 24 256 20000 A B C (fun _ => 1) = some m' ∧
      m' (elementAddress C 10000 1 0) = 258 ∧
      dotFrom intOps A B 0 2000 (fun _ => 1) A.j.val.toInterval 0 1 0 = 257 ∧
      ¬ IsProduct intOps A B C 0 2000 10000 20000 (4 * 24) (fun _ => 1) m' := by
  intro A B C
  have h : Multipliable A B C 0 2000 10000 := denseMatrix_multipliable (by omega) (by omega) (by omega)
    (by intros; omega) (by intros; omega)
  have elt : ∀ {p x y q : Int}, ElementOf (denseMatrix p x y) p q → p ≤ q ∧ q < p + x * y := by
    rintro p x y q ⟨i, j, hi, hj, rfl⟩
    have hi' : 0 ≤ i ∧ i < x := by simpa [inDim, denseMatrix] using hi
    have hj' : 0 ≤ j ∧ j < y := by simpa [inDim, denseMatrix] using hj
    have := dense_index hi'.1 hi'.2 hj'.1 hj'.2
    simp only [elementAddress, denseMatrix]
    constructor <;> linarith [this.1, this.2]
  have hb : BufferFree A B C 0 2000 10000 20000 (4 * 24) := by
    intro p h1 h2
    refine ⟨fun he => ?_, fun he => ?_, fun he => ?_⟩ <;> have := elt he <;> omega
  have hdot : ∀ (ks : Interval) (i j : Int), 0 ≤ ks.extent →
      dotFrom intOps A B 0 2000 (fun _ => 1) ks 0 i j = ks.extent := by
    intro ks i j hk
    have : ∀ (l : List Int) (s : Int), l.foldl (fun s _ => s + 1 * 1) s = s + l.length := by
      intro l
      induction l with
      | nil => intro s; simp
      | cons x l ih => intro s; rw [List.foldl_cons, ih, List.length_cons]; push_cast; ring
    refine (this (ascending ks) 0).trans ?_
    unfold ascending
    rw [List.length_map, List.length_range]
    omega
  have hi1 : inDim C.i 1 := by simp [inDim, C, denseMatrix]
  have hj0 : inDim C.j 0 := by simp [inDim, C, denseMatrix]
  obtain ⟨m', e, h1, -⟩ := C53_z_order intOps A B C 0 2000 10000 (fun _ => 1) 4 24 20000 debug 256 h (by omega)
    (by omega) (by omega) hb (by show (4 : Int) ≤ 5; omega) (by show (24 : Int) ≤ 24; omega)
    (by show (0 : Int) < 257; omega)
  have hv : m' (elementAddress C 10000 1 0) = 258 := by
    rw [h1 1 0 hi1 hj0]
    have e1 : (blocks 256 A.j.val.toInterval).tail = [⟨256, 1⟩] := by decide
    have e2 : tileCount 4 C.i 1 * tileCount 24 C.j 0 = 2 := by decide
    rw [e1, e2]
    show addTimes intOps 2 (dotFrom intOps A B 0 2000 (fun _ => 1) ⟨256, 1⟩ 0 1 0)
      (dotFrom intOps A B 0 2000 (fun _ => 1) ⟨0, min 256 257⟩ 0 1 0) = 258
    rw [hdot _ _ _ (by decide), hdot _ _ _ (by decide)]
    decide
  have hd := hdot A.j.val.toInterval 1 0 (by decide)
  refine ⟨h, hb, m', e, hv, hd, fun hp => ?_⟩
  have h3 := hp.1 1 0 hi1 hj0
  rw [hv] at h3
  have h3 : (258 : Int) = dotFrom intOps A B 0 2000 (fun _ => 1) A.j.val.toInterval 0 1 0 := h3
  rw [hd] at h3
  exact absurd h3 (by decide)

/-! ### Examples -/

/-- Tiles that overlap, one block of `k`. -/
example : ∃ m', multiplyReduceTilesZOrder intOps true 2 2 3 100 (denseMatrix 0 3 3) (denseMatrix 10 3 2)
    (denseMatrix 20 3 2) (fun p => p) =
    some m' ∧ [m' 20, m' 21, m' 22, m' 23, m' 24, m' 25, m' 26] = [40, 43, 148, 160, 256, 277, 26] := by
  obtain ⟨m', e, h⟩ := C53_product_partial intOps _ _ _ _ _ _ (fun p => p) 2 2 100 true 3 example_multipliable
    (by omega) (by omega) (by omega) example_bufferFree (by decide) (by decide) (by decide) Int.add_assoc
    Int.add_zero (Or.inr (by decide))
  exact ⟨m', e, example_product (by omega) h⟩

/-- Tiles that overlap and two blocks of `k`: the second row is wrong. -/
example : ∃ m', multiplyReduceTilesZOrder intOps true 2 2 2 100 (denseMatrix 0 3 3) (denseMatrix 10 3 2)
    (denseMatrix 20 3 2) (fun p => p) = some m' ∧ m' 20 = 40 ∧ m' 22 = 218 := by
  obtain ⟨m', e, h, -⟩ := C53_z_order intOps _ _ _ _ _ _ (fun p => p) 2 2 100 true 2 example_multipliable
    (by omega) (by omega) (by omega) example_bufferFree (by decide) (by decide) (by decide)
  exact ⟨m', e, (h 0 0 (by simp [inDim, denseMatrix]) (by simp [inDim, denseMatrix])).trans (by decide),
    (h 1 0 (by simp [inDim, denseMatrix]) (by simp [inDim, denseMatrix])).trans (by decide)⟩

end Nda
