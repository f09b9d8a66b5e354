import Verif.Lemmas.MatrixZOrder
/-
C52: the versions of matrix multiplication in examples/linear_algebra/matrix.cpp.
-/
namespace Nda
open Spec
variable {F : Type} (o : ScalarOps F) (A B C : Image2) (a b c : Int) (m : Mem F)

/-- C52: `multiply_reduce_cols`. -/
theorem C52_reduce_cols (h : Multipliable A B C a b c) :
    ∃ m', multiplyReduceCols o A B C m = some m' ∧ IsProduct o A B C a b c 0 0 m m' := by
  classical
  obtain ⟨W, hW⟩ := exists_term h.mulView o m
  obtain ⟨m', e, -, h'⟩ := run_rect (is := C.i.val.toInterval) (js := C.j.val.toInterval) (elementAddress C c)
    h.matC.rows.2 h.matC.cols.2.1
    (fun m i j => (storeAt (C.at_ i j) o.zero m).bind
      (forRange A.j.val.toInterval (fun m k => mulAddAt o (C.at_ i j) (A.at_ i k) (B.at_ k j) m)))
    (fun p _ => valueOf o A.j.val.toInterval W p) (Operands A B a b) m h.injective
    (fun i j m1 hi hj hm1 => by
      set q := elementAddress C c i j with hq
      have hno := h.mulView.not_operand hi hj
      rw [Image2.at_eq h.matC.base hi hj, ← hq]
      obtain ⟨m2, e2, -, h2⟩ := run_same (ks := A.j.val.toInterval) (fun p => p = q) h.matA.cols.2.1
        (fun m k => mulAddAt o (some q) (A.at_ i k) (B.at_ k j) m) (fun k p s => o.add s (W k p))
        (Operands A B a b) m
        (fun k m2 hk hm2 => by
          have e := mulAdd_step (o := o) h.mulView hm2 hi hj hk
          rw [Image2.at_eq h.matC.base hi hj, ← hq, ← hW i j k hi hj, ← hq] at e
          refine ⟨_, e, fun p hp => ?_, fun p => ?_⟩
          · unfold Mem.set
            rw [if_neg (by rintro rfl; exact hno hp), hm2 p hp]
          · unfold Mem.set
            by_cases hp : p = q
            · rw [if_pos hp, if_pos hp, hp]
            · rw [if_neg hp, if_neg hp])
        (by rintro p rfl; exact hno) (m1.set q o.zero) (fun p hp => by
          unfold Mem.set
          rw [if_neg (by rintro rfl; exact hno hp), hm1 p hp])
      refine e2.trans ?_
      congr 1
      funext p
      rw [h2 p]
      unfold Mem.set valueOf
      by_cases hp : p = q
      · rw [if_pos hp, if_pos hp, if_pos hp, hp]
      · rw [if_neg hp, if_neg hp, if_neg hp])
    (fun i j hi hj => h.mulView.not_operand hi hj) m (fun _ _ => rfl)
  exact ⟨m', e, isProduct_of hW (fun p _ => h' p) (by intros; omega)⟩

/-- C52: `multiply_reduce_rows`. -/
theorem C52_reduce_rows (h : Multipliable A B C a b c) :
    ∃ m', multiplyReduceRows o A B C m = some m' ∧ IsProduct o A B C a b c 0 0 m m' := by
  classical
  obtain ⟨W, hW⟩ := exists_term h.mulView o m
  obtain ⟨m', e, -, h'⟩ := run_lines (is := C.i.val.toInterval)
    (fun i p => ∃ j, inDim C.j j ∧ p = elementAddress C c i j) h.matC.rows.2
    (fun m i => (forRange C.j.val.toInterval (fun m j => storeAt (C.at_ i j) o.zero m) m).bind
      (forRange A.j.val.toInterval (fun m k =>
        forRange C.j.val.toInterval (fun m j => mulAddAt o (C.at_ i j) (A.at_ i k) (B.at_ k j) m) m)))
    (fun p _ => valueOf o A.j.val.toInterval W p) (Operands A B a b) m
    (by
      rintro i i' p hi hi' ⟨j, hj, rfl⟩ ⟨j', hj', e⟩
      exact (h.injective _ _ _ _ hi hj hi' hj' e).1)
    (fun i m1 hi hm1 => by
      obtain ⟨m2, e2, hm2, h2⟩ := zeroRow_spec (o := o) h.mulView h.matC.cols.2.1 hi m1 hm1
      obtain ⟨m3, e3, hm3, h3⟩ := run_same (ks := A.j.val.toInterval)
        (fun p => ∃ j, inDim C.j j ∧ p = elementAddress C c i j) h.matA.cols.2.1
        (fun m k => forRange C.j.val.toInterval (fun m j => mulAddAt o (C.at_ i j) (A.at_ i k) (B.at_ k j) m) m)
        (fun k p s => o.add s (W k p)) (Operands A B a b) m
        (fun k m2 hk hm2 => mulRow_spec h.mulView hW h.matC.cols.2.1 hi hk m2 hm2)
        (by rintro p ⟨j, hj, rfl⟩; exact h.mulView.not_operand hi hj) m2 hm2
      refine ⟨m3, by rw [e2]; exact e3, hm3, fun p => ?_⟩
      rw [h3 p, h2 p]
      by_cases hp : ∃ j, inDim C.j j ∧ p = elementAddress C c i j
      · rw [if_pos hp, if_pos hp, if_pos hp]; rfl
      · rw [if_neg hp, if_neg hp, if_neg hp])
    (by rintro i p hi ⟨j, hj, rfl⟩; exact h.mulView.not_operand hi hj) m (fun _ _ => rfl)
  refine ⟨m', e, isProduct_of hW (fun p _ => ?_) (by intros; omega)⟩
  rw [h' p]
  refine if_congr ?_ rfl rfl
  constructor
  · rintro ⟨i, hi, j, hj, e⟩; exact ⟨i, j, hi, hj, e⟩
  · rintro ⟨i, j, hi, hj, e⟩; exact ⟨i, hi, j, hj, e⟩

/-- C52: `multiply_reduce_matrix`. -/
theorem C52_reduce_matrix (h : Multipliable A B C a b c) :
    ∃ m', multiplyReduceMatrix o A B C m = some m' ∧ IsProduct o A B C a b c 0 0 m m' := by
  classical
  obtain ⟨W, hW⟩ := exists_term h.mulView o m
  obtain ⟨m1, e1, hm1, h1⟩ := run_rect (is := C.i.val.toInterval) (js := C.j.val.toInterval) (elementAddress C c)
    h.matC.rows.2 h.matC.cols.2.1 (fun m i j => storeAt (C.at_ i j) o.zero m) (fun _ _ => o.zero)
    (Operands A B a b) m h.injective
    (fun i j m1 hi hj hm1 => by rw [Image2.at_eq h.matC.base hi hj]; rfl)
    (fun i j hi hj => h.mulView.not_operand hi hj) m (fun _ _ => rfl)
  obtain ⟨m2, e2, -, h2⟩ := accumulateTile_spec h.mulView hW (ks := A.j.val.toInterval)
    (is := C.i.val.toInterval) (js := C.j.val.toInterval) h.matA.cols.2.1 h.matC.rows.2 h.matC.cols.2.1
    (fun _ h => h) (fun _ h => h) (fun _ h => h) m1 hm1
  refine ⟨m2, ?_, isProduct_of hW (fun p _ => ?_) (by intros; omega)⟩
  · unfold multiplyReduceMatrix
    rw [e1]
    exact e2
  · rw [h2 p, h1 p]
    by_cases hp : Rect (elementAddress C c) C.i.val.toInterval C.j.val.toInterval p
    · rw [if_pos hp, if_pos hp, if_pos (c := ElementOf C c p) hp]; rfl
    · rw [if_neg hp, if_neg hp, if_neg (c := ElementOf C c p) hp]

/-- C52: `multiply_ref`, for pointers to dense `M x K`, `K x N` and `M x N` matrices. -/
theorem C52_ref (M K N : Int) (hM : 0 ≤ M) (hK : 0 ≤ K) (hN : 0 ≤ N)
    (hA : ∀ p, a ≤ p → p < a + M * K → ¬ (c ≤ p ∧ p < c + M * N))
    (hB : ∀ p, b ≤ p → p < b + K * N → ¬ (c ≤ p ∧ p < c + M * N)) :
    ∃ m', multiplyRef o a b c M K N m = some m' ∧
      IsProduct o (denseMatrix a M K) (denseMatrix b K N) (denseMatrix c M N) a b c 0 0 m m' := by
  classical
  have h := denseMatrix_multipliable hM hK hN hA hB
  obtain ⟨W, hW⟩ := exists_term h.mulView o m
  have at_ : ∀ {p R C i j : Int}, 0 ≤ i → i < R → 0 ≤ j → j < C →
      pointerAt p (R * C) (i * C + j) = some (elementAddress (denseMatrix p R C) p i j) := by
    intro p R C i j h1 h2 h3 h4
    have := dense_index h1 h2 h3 h4
    unfold pointerAt
    rw [if_pos (by rw [Bool.and_eq_true]; exact ⟨decide_eq_true this.1, decide_eq_true this.2⟩)]
    simp only [elementAddress, denseMatrix, Option.some.injEq]
    ring
  obtain ⟨m', e, -, h'⟩ := run_rect (is := ⟨0, M⟩) (js := ⟨0, N⟩) (elementAddress (denseMatrix c M N) c) hM hN
    (fun m i j => (forRange ⟨0, K⟩ (fun sum k => (pointerAt a (M * K) (i * K + k)).bind fun a =>
        (pointerAt b (K * N) (k * N + j)).bind fun b => some (o.add sum (o.mul (m a) (m b)))) o.zero).bind fun sum =>
      storeAt (pointerAt c (M * N) (i * N + j)) sum m)
    (fun p _ => valueOf o ⟨0, K⟩ W p) (Operands (denseMatrix a M K) (denseMatrix b K N) a b) m h.injective
    (fun i j m1 hi hj hm1 => by
      have hi' : 0 ≤ i ∧ i < M := by simpa [InInterval] using hi
      have hj' : 0 ≤ j ∧ j < N := by simpa [InInterval] using hj
      rw [forRange_eq hK, foldlM_total (g := fun s k => o.add s (W k (elementAddress (denseMatrix c M N) c i j)))
        (fun k hk s => ?_)]
      · rw [Option.bind_some, at_ hi'.1 hi'.2 hj'.1 hj'.2]
        rfl
      · have hk := mem_ints.1 hk
        have hk' : 0 ≤ k ∧ k < K := by simpa using hk
        rw [at_ hi'.1 hi'.2 hk'.1 hk'.2, at_ hk'.1 hk'.2 hj'.1 hj'.2, hW i j k hi hj, Option.bind_some,
          Option.bind_some, hm1 _ (Or.inl ⟨i, k, hi, hk, rfl⟩), hm1 _ (Or.inr ⟨k, j, hk, hj, rfl⟩)])
    (fun i j hi hj => h.mulView.not_operand hi hj) m (fun _ _ => rfl)
  exact ⟨m', e, isProduct_of hW (fun p _ => h' p) (by intros; omega)⟩

/-! ### With `ein_reduce` -/

theorem multiplyEinFill_spec {i j k : Nat} (ho : LoopOrder i j k) (debug : Bool) (h : Multipliable A B C a b c)
    (hr : Encloses A.i C.i) (hc : Encloses B.j C.j) (hs : C.i.val.stride ≠ 0) :
    ∃ m', multiplyEin o debug i j k A B C (fill ⟨C.base, values C.dims⟩ o.zero m) = some m' ∧
      IsProduct o A B C a b c 0 0 m m' := by
  classical
  have fits : ∀ {M : Image2} {x : Int}, IsMatrix M x → Fits M.i.ty M.i.val ∧ Fits M.j.ty M.j.val := by
    intro M x hM
    rw [hM.rows.1, hM.cols.1]
    exact ⟨⟨fun h => absurd rfl h, fun h => absurd rfl h, fun h => absurd rfl h⟩,
      fun h => absurd rfl h, fun h => absurd rfl h, fun _ => hM.cols.2.2⟩
  have hv : EinView A B C a b c :=
    ⟨h.mulView, fits h.matA, fits h.matB, fits h.matC, ⟨h.matC.rows.2, h.matC.cols.2.1, h.matA.cols.2.1⟩,
      ⟨hs, by rw [h.matC.cols.2.2]; omega⟩, hr, hc, h.inner⟩
  obtain ⟨W, hW⟩ := exists_term h.mulView o m
  obtain ⟨f1, f2⟩ := C19_fill ⟨C.base, values C.dims⟩ c h.matC.base (by
    intro d hd
    simp only [values, Image2.dims, List.map_cons, List.map_nil, List.mem_cons, List.not_mem_nil, or_false] at hd
    rcases hd with rfl | rfl
    · exact h.matC.rows.2
    · exact h.matC.cols.2.1) o.zero m
  have f1' : ∀ p, ElementOf C c p → fill ⟨C.base, values C.dims⟩ o.zero m p = o.zero := by
    rintro p ⟨i, j, hi, hj, rfl⟩
    rw [← einMat_address]
    exact f1 [i, j] ⟨hi, hj, trivial⟩
  have f2' : ∀ p, ¬ ElementOf C c p → fill ⟨C.base, values C.dims⟩ o.zero m p = m p := by
    intro p hp
    apply f2
    intro i hi e
    match i, hi with
    | [i, j], hi => exact hp ⟨i, j, hi.1, hi.2.1, e.trans (einMat_address C c i j)⟩
  obtain ⟨m', e, h'⟩ := multiplyEin_spec hv ho debug hW (fill ⟨C.base, values C.dims⟩ o.zero m) (by
    rintro p hp
    apply f2'
    rintro ⟨i, j, hi, hj, rfl⟩
    exact h.mulView.not_operand hi hj hp)
  refine ⟨m', e, isProduct_of hW (fun p _ => ?_) (by intros; omega)⟩
  rw [h' p]
  by_cases hp : ElementOf C c p
  · rw [if_pos hp, if_pos hp, f1' p hp]; rfl
  · rw [if_neg hp, if_neg hp, f2' p hp]

/-- C52: `multiply_ein_reduce_cols`. -/
theorem C52_ein_reduce_cols (debug : Bool) (h : Multipliable A B C a b c)
    (hr : Encloses A.i C.i) (hc : Encloses B.j C.j) (hs : C.i.val.stride ≠ 0) :
    ∃ m', multiplyEinReduceCols o debug A B C m = some m' ∧ IsProduct o A B C a b c 0 0 m m' :=
  multiplyEinFill_spec o A B C a b c m (Or.inl ⟨rfl, rfl, rfl⟩) debug h hr hc hs

/-- C52: `multiply_ein_reduce_rows`. -/
theorem C52_ein_reduce_rows (debug : Bool) (h : Multipliable A B C a b c)
    (hr : Encloses A.i C.i) (hc : Encloses B.j C.j) (hs : C.i.val.stride ≠ 0) :
    ∃ m', multiplyEinReduceRows o debug A B C m = some m' ∧ IsProduct o A B C a b c 0 0 m m' :=
  multiplyEinFill_spec o A B C a b c m (Or.inr (Or.inl ⟨rfl, rfl, rfl⟩)) debug h hr hc hs

/-- C52: `multiply_ein_reduce_matrix`. -/
theorem C52_ein_reduce_matrix (debug : Bool) (h : Multipliable A B C a b c)
    (hr : Encloses A.i C.i) (hc : Encloses B.j C.j) (hs : C.i.val.stride ≠ 0) :
    ∃ m', multiplyEinReduceMatrix o debug A B C m = some m' ∧ IsProduct o A B C a b c 0 0 m m' :=
  multiplyEinFill_spec o A B C a b c m (Or.inr (Or.inr ⟨rfl, rfl, rfl⟩)) debug h hr hc hs

/-! ### Tiles -/

section
variable (tileRows tileCols buf : Int)

theorem forTiles_spec (debug : Bool) (h : Multipliable A B C a b c) (hr : 0 < tileRows) (hc : 0 < tileCols)
    (hb : BufferFree A B C a b c buf (tileRows * tileCols)) (hi : Splittable debug tileRows C.i)
    (hj : Splittable debug tileCols C.j) (body : Interval → Interval → Mem F → Option (Mem F)) {W : Int → Int → F}
    (hW : IsTerm o A B C a b c m W)
    (hbody : open Classical in ∀ io jo, io.extent = tileRows → jo.extent = tileCols → Within io C.i → Within jo C.j →
      ∀ m1, (∀ p, Operands A B a b p → m1 p = m p) → ∃ m', body io jo m1 = some m' ∧
        ∀ p, ¬ (buf ≤ p ∧ p < buf + tileRows * tileCols) →
          m' p = if Rect (elementAddress C c) io jo p then valueOf o A.j.val.toInterval W p else m1 p) :
    ∃ m', forTiles debug tileRows tileCols C body m = some m' ∧
      IsProduct o A B C a b c buf (tileRows * tileCols) m m' := by
  classical
  obtain ⟨ai, li, ei, hi1, hi2⟩ := splittable_pieces hr hi
  obtain ⟨aj, lj, ej, hj1, hj2⟩ := splittable_pieces hc hj
  have hsep : ∀ p, Operands A B a b p → ¬ (buf ≤ p ∧ p < buf + tileRows * tileCols) := by
    rintro p (hp | hp) hbuf
    · exact (hb p hbuf.1 hbuf.2).1 hp
    · exact (hb p hbuf.1 hbuf.2).2.1 hp
  have hrect : ∀ io ∈ li, ∀ jo ∈ lj, ∀ p, Rect (elementAddress C c) io jo p → ElementOf C c p := by
    rintro io hio jo hjo p ⟨i, j, h1, h2, rfl⟩
    exact ⟨i, j, (hi2 i).2 ⟨io, hio, h1⟩, (hj2 j).2 ⟨jo, hjo, h2⟩, rfl⟩
  have hop : ∀ p, ElementOf C c p → ¬ Operands A B a b p := by
    rintro p ⟨i, j, h1, h2, rfl⟩
    exact h.mulView.not_operand h1 h2
  obtain ⟨m', e, -, h'⟩ := run_blocks (fun m io => lj.foldlM (fun m jo => body io jo m) m)
    (fun io p => ∃ jo ∈ lj, Rect (elementAddress C c) io jo p) (fun _ p _ => valueOf o A.j.val.toInterval W p)
    (Operands A B a b) (fun p => buf ≤ p ∧ p < buf + tileRows * tileCols) m li
    (fun io hio m1 hm1 => by
      obtain ⟨m2, e2, -, h2⟩ := run_blocks (fun m jo => body io jo m)
        (fun jo p => Rect (elementAddress C c) io jo p) (fun _ p _ => valueOf o A.j.val.toInterval W p)
        (Operands A B a b) (fun p => buf ≤ p ∧ p < buf + tileRows * tileCols) m lj
        (fun jo hjo m1 hm1 => hbody io jo (hi1 io hio) (hj1 jo hjo) (fun x hx => (hi2 x).2 ⟨io, hio, hx⟩)
          (fun x hx => (hj2 x).2 ⟨jo, hjo, hx⟩) m1 hm1)
        (fun jo hjo p hp => ⟨fun hR => hop p (hrect io hio jo hjo p hR) hp, hsep p hp⟩) m1 hm1
      refine ⟨m2, e2, fun p hp => ?_⟩
      rw [h2 p hp]
      exact @foldl_ite_const _ _ (fun jo => Rect (elementAddress C c) io jo p) (fun _ => Classical.propDecidable _)
        _ _ (Classical.propDecidable _) _)
    (fun io hio p hp => ⟨by
      rintro ⟨jo, hjo, hR⟩
      exact hop p (hrect io hio jo hjo p hR) hp, hsep p hp⟩) m (fun _ _ => rfl)
  refine ⟨m', ?_, isProduct_of hW (fun p hp => ?_) (fun p hp hbuf => (hb p hbuf.1 hbuf.2).2.2 hp)⟩
  · unfold forTiles
    rw [ai, ei, aj, ej]
    exact e
  · rw [h' p hp]
    by_cases hE : ElementOf C c p
    · rw [if_pos hE]
      refine @foldl_ite_some _ _ (fun io => ∃ jo ∈ lj, Rect (elementAddress C c) io jo p)
        (fun _ => Classical.propDecidable _) _ _ _ ?_
      obtain ⟨i, j, h1, h2, rfl⟩ := hE
      obtain ⟨io, hio, h1⟩ := (hi2 i).1 h1
      obtain ⟨jo, hjo, h2⟩ := (hj2 j).1 h2
      exact ⟨io, hio, jo, hjo, i, j, h1, h2, rfl⟩
    · rw [if_neg hE]
      exact foldl_ite_none (P := fun io => ∃ jo ∈ lj, Rect (elementAddress C c) io jo p)
        (f := fun _ _ => valueOf o A.j.val.toInterval W p) fun io hio ⟨jo, hjo, hR⟩ => hE (hrect io hio jo hjo p hR)

/-- C52: `multiply_reduce_tiles`. -/
theorem C52_reduce_tiles (debug : Bool) (h : Multipliable A B C a b c) (hr : 0 < tileRows) (hc : 0 < tileCols)
    (hb : BufferFree A B C a b c buf (tileRows * tileCols)) (hi : Splittable debug tileRows C.i)
    (hj : Splittable debug tileCols C.j) :
    ∃ m', multiplyReduceTiles o debug tileRows tileCols buf A B C m = some m' ∧
      IsProduct o A B C a b c buf (tileRows * tileCols) m m' := by
  obtain ⟨W, hW⟩ := exists_term h.mulView o m
  exact forTiles_spec o A B C a b c m tileRows tileCols buf debug h hr hc hb hi hj _ hW
    fun io jo h1 h2 h3 h4 m1 hm1 => multiplyTile_spec h hb hr hc h1 h2 h3 h4 hW m1 hm1

/-- C52: `multiply_ein_reduce_tiles`. -/
theorem C52_ein_reduce_tiles (debug : Bool) (h : Multipliable A B C a b c) (hr : 0 < tileRows) (hc : 0 < tileCols)
    (hb : BufferFree A B C a b c buf (tileRows * tileCols)) (hi : Splittable debug tileRows C.i)
    (hj : Splittable debug tileCols C.j) :
    ∃ m', multiplyEinReduceTiles o debug tileRows tileCols buf A B C m = some m' ∧
      IsProduct o A B C a b c buf (tileRows * tileCols) m m' := by
  obtain ⟨W, hW⟩ := exists_term h.mulView o m
  exact forTiles_spec o A B C a b c m tileRows tileCols buf debug h hr hc hb hi hj _ hW
    fun io jo h1 h2 h3 h4 m1 hm1 => multiplyEinTile_spec h hb hr hc h1 h2 h3 h4 debug hW m1 hm1

/-- C52, negative part: with fewer rows than a tile has, but at least one, the tiled versions fail an
assertion or do not end. -/
theorem C52_small_counterexample (debug : Bool) (h0 : 0 < C.i.val.extent) (h1 : C.i.val.extent < tileRows) :
    multiplyReduceTiles o debug tileRows tileCols buf A B C m = none ∧
    multiplyEinReduceTiles o debug tileRows tileCols buf A B C m = none := by
  have : ∀ body : Interval → Interval → Mem F → Option (Mem F),
      forTiles debug tileRows tileCols C body m = none := by
    intro body
    unfold forTiles
    rw [C25_small_diverges C.i.val.toInterval tileRows h0 h1]
    cases requireAssert debug (splitStaticAssert tileRows C.i.val.toInterval) <;> rfl
  exact ⟨this _, this _⟩

end

/-! ### Examples -/

/-- Integers. -/
def intOps : ScalarOps Int := ⟨0, (· + ·), (· * ·), (· < ·)⟩

/-- The hypotheses of the theorems hold for these matrices. -/
theorem example_multipliable : Multipliable (denseMatrix 0 3 3) (denseMatrix 10 3 2) (denseMatrix 20 3 2) 0 10 20 :=
  denseMatrix_multipliable (by omega) (by omega) (by omega) (by intros; omega) (by intros; omega)

theorem denseMatrix_elements {p x y q : Int} (h : ElementOf (denseMatrix p x y) p q) : p ≤ q ∧ q < p + x * y := by
  obtain ⟨i, j, hi, hj, rfl⟩ := h
  have hi' : 0 ≤ i ∧ i < x := by simpa [inDim, denseMatrix] using hi
  have hj' : 0 ≤ j ∧ j < y := by simpa [inDim, denseMatrix] using hj
  have := dense_index hi'.1 hi'.2 hj'.1 hj'.2
  simp only [elementAddress, denseMatrix]
  constructor <;> linarith [this.1, this.2]

theorem example_bufferFree :
    BufferFree (denseMatrix 0 3 3) (denseMatrix 10 3 2) (denseMatrix 20 3 2) 0 10 20 100 (2 * 2) := by
  intro p h1 h2
  refine ⟨fun he => ?_, fun he => ?_, fun he => ?_⟩ <;> have := denseMatrix_elements he <;> omega

/-- The product of `0 1 2, 3 4 5, 6 7 8` and `10 11, 12 13, 14 15`, at address 20; 26 is not written to. -/
theorem example_product {buf n : Int} {m' : Mem Int} (hn : ¬ (buf ≤ 26 ∧ 26 < buf + n))
    (h : IsProduct intOps (denseMatrix 0 3 3) (denseMatrix 10 3 2) (denseMatrix 20 3 2) 0 10 20 buf n (fun p => p) m') :
    [m' 20, m' 21, m' 22, m' 23, m' 24, m' 25, m' 26] = [40, 43, 148, 160, 256, 277, 26] := by
  have e : ∀ i j, inDim (denseMatrix 20 3 2).i i → inDim (denseMatrix 20 3 2).j j → _ := h.1
  have e00 : m' 20 = 40 := (e 0 0 (by simp [inDim, denseMatrix]) (by simp [inDim, denseMatrix])).trans (by decide)
  have e01 : m' 21 = 43 := (e 0 1 (by simp [inDim, denseMatrix]) (by simp [inDim, denseMatrix])).trans (by decide)
  have e10 : m' 22 = 148 := (e 1 0 (by simp [inDim, denseMatrix]) (by simp [inDim, denseMatrix])).trans (by decide)
  have e11 : m' 23 = 160 := (e 1 1 (by simp [inDim, denseMatrix]) (by simp [inDim, denseMatrix])).trans (by decide)
  have e20 : m' 24 = 256 := (e 2 0 (by simp [inDim, denseMatrix]) (by simp [inDim, denseMatrix])).trans (by decide)
  have e21 : m' 25 = 277 := (e 2 1 (by simp [inDim, denseMatrix]) (by simp [inDim, denseMatrix])).trans (by decide)
  have e26 : m' 26 = 26 := h.2 26 (fun he => by have := denseMatrix_elements he; omega) hn
  rw [e00, e01, e10, e11, e20, e21, e26]

example : ∃ m', multiplyReduceRows intOps (denseMatrix 0 3 3) (denseMatrix 10 3 2) (denseMatrix 20 3 2) (fun p => p) =
    some m' ∧ [m' 20, m' 21, m' 22, m' 23, m' 24, m' 25, m' 26] = [40, 43, 148, 160, 256, 277, 26] := by
  obtain ⟨m', e, h⟩ := C52_reduce_rows intOps _ _ _ _ _ _ (fun p => p) example_multipliable
  exact ⟨m', e, example_product (by omega) h⟩

example : ∃ m', multiplyRef intOps 0 10 20 3 3 2 (fun p => p) =
    some m' ∧ [m' 20, m' 21, m' 22, m' 23, m' 24, m' 25, m' 26] = [40, 43, 148, 160, 256, 277, 26] := by
  obtain ⟨m', e, h⟩ := C52_ref intOps 0 10 20 (fun p => p) 3 3 2 (by omega) (by omega) (by omega)
    (by intros; omega) (by intros; omega)
  exact ⟨m', e, example_product (by omega) h⟩

example : ∃ m', multiplyEinReduceMatrix intOps true (denseMatrix 0 3 3) (denseMatrix 10 3 2) (denseMatrix 20 3 2)
    (fun p => p) =
    some m' ∧ [m' 20, m' 21, m' 22, m' 23, m' 24, m' 25, m' 26] = [40, 43, 148, 160, 256, 277, 26] := by
  obtain ⟨m', e, h⟩ := C52_ein_reduce_matrix intOps _ _ _ _ _ _ (fun p => p) true example_multipliable
    ⟨by decide, by decide⟩ ⟨by decide, by decide⟩ (by decide)
  exact ⟨m', e, example_product (by omega) h⟩

/-- Three rows in tiles of two rows: the tiles overlap. -/
example : ∃ m', multiplyEinReduceTiles intOps true 2 2 100 (denseMatrix 0 3 3) (denseMatrix 10 3 2)
    (denseMatrix 20 3 2) (fun p => p) =
    some m' ∧ [m' 20, m' 21, m' 22, m' 23, m' 24, m' 25, m' 26] = [40, 43, 148, 160, 256, 277, 26] := by
  obtain ⟨m', e, h⟩ := C52_ein_reduce_tiles intOps _ _ _ _ _ _ (fun p => p) 2 2 100 true example_multipliable
    (by omega) (by omega) example_bufferFree (Or.inl (by decide)) (Or.inl (by decide))
  exact ⟨m', e, example_product (by omega) h⟩

end Nda
