import Verif.Lemmas.MatrixEin
/-
Lemmas about tiled matrix multiplication (C52).
-/
namespace Nda
open Spec Classical
variable {F : Type} {o : ScalarOps F}

/-- The tile of `C` for two intervals. -/
def tileOf (C : Image2) (c tr tc : Int) (io jo : Interval) : Image2 :=
  ⟨some (elementAddress C c io.min jo.min), ⟨⟨dynamic, tr, dynamic⟩, ⟨io.min, tr, C.i.val.stride⟩⟩,
    ⟨⟨dynamic, tc, 1⟩, ⟨jo.min, tc, 1⟩⟩⟩

/-- The accumulator for two intervals. -/
def accOf (buf tr tc : Int) (io jo : Interval) : Image2 :=
  ⟨some buf, ⟨⟨dynamic, tr, tc⟩, ⟨io.min, tr, tc⟩⟩, ⟨⟨dynamic, tc, 1⟩, ⟨jo.min, tc, 1⟩⟩⟩

theorem crop_tile {C : Image2} {c tr tc : Int} {io jo : Interval} (hC : IsMatrix C c)
    (htr : 0 < tr) (htc : 0 < tc) (hi : io.extent = tr) (hj : jo.extent = tc) :
    C.crop (tileInterval tr io) (tileInterval tc jo) = tileOf C c tr tc io jo := by
  have e1 : isStatic tr = true := by simp [isStatic, dynamic]; omega
  have e2 : isStatic tc = true := by simp [isStatic, dynamic]; omega
  unfold Image2.crop tileOf
  rw [hC.base]
  simp only [tileInterval, SDim.rangeInterval, DimT.make, hC.rows.1, hC.cols.1, ciInit, e1, e2, pointerAdd,
    flatOffset_eq, values, Image2.dims, List.map_cons, List.map_nil, offsetOf, Option.map_some, elementAddress]
  simp [isStatic, dynamic]
  ring

theorem tileOf_address {C : Image2} {c tr tc : Int} {io jo : Interval} (hC : IsMatrix C c) (i j : Int) :
    elementAddress (tileOf C c tr tc io jo) (elementAddress C c io.min jo.min) i j = elementAddress C c i j := by
  unfold tileOf elementAddress
  simp only [hC.cols.2.2]
  ring

theorem compactRef_tile {C : Image2} {c tr tc buf : Int} {io jo : Interval} (htr : 0 < tr) (htc : 0 < tc) :
    compactRef (tileOf C c tr tc io jo) buf = accOf buf tr tc io jo := by
  have e1 : isStatic tr = true := by simp [isStatic, dynamic]; omega
  have e2 : isStatic tc = true := by simp [isStatic, dynamic]; omega
  have hs : makeCompactStart (tileOf C c tr tc io jo).dims = tc := by
    simp only [makeCompactStart, tileOf, Image2.dims, List.map_cons, List.map_nil, variadicMax, imax_eq]
    have h1 : Nda.any [decide (dynamic > 1), decide ((1 : Int) > 1)] = false := rfl
    have h2 : Nda.all [isDynamic dynamic, isDynamic 1] = false := rfl
    have h3 : ((dynamic == (1 : Int)) : Bool) = false := rfl
    have h4 : isDynamic tc = false := by simp [isDynamic, dynamic]; omega
    rw [h1, h2, h3]
    simp only [Bool.false_eq_true, if_false, BEq.rfl, if_true, staticAbs, h4, iabs, dynamic, unresolved]
    split <;> omega
  have hd : makeCompactDims (tileOf C c tr tc io jo).dims = (accOf buf tr tc io jo).dims := by
    unfold makeCompactDims
    rw [hs]
    simp only [tileOf, Image2.dims, accOf, makeCompactDimsFrom, DimT.make, DimT.defaultStride, ciInit, e1, e2]
    simp [isStatic, dynamic]
    omega
  have hc : makeCompact (tileOf C c tr tc io jo).dims = (accOf buf tr tc io jo).dims := by
    unfold makeCompact
    simp only [hd]
    rw [resolve_of_known]
    · simp only [Image2.dims, accOf, values, List.map_cons, List.map_nil, List.zipWith_cons_cons,
        List.zipWith_nil_right, DimT.setStride, ciInit]
      simp [isStatic]
    · intro d hd
      simp only [Image2.dims, accOf, values, List.map_cons, List.map_nil, List.mem_cons, List.not_mem_nil, or_false] at hd
      rcases hd with rfl | rfl
      · show tc ≠ _
        omega
      · show (1 : Int) ≠ _
        omega
  unfold compactRef
  rw [hc]
  rfl

/-- The indices of the interval are those of a dim. -/
def Within (v : Interval) (d : SDim) : Prop := ∀ x, InInterval v x → inDim d x

section
variable {A B C : Image2} {a b c buf tr tc : Int} {io jo : Interval}

theorem accOf_buffer (hi : inDim (accOf buf tr tc io jo).i i) (hj : inDim (accOf buf tr tc io jo).j j) :
    buf ≤ elementAddress (accOf buf tr tc io jo) buf i j ∧
    elementAddress (accOf buf tr tc io jo) buf i j < buf + tr * tc := by
  simp only [inDim, accOf] at hi hj
  have := dense_index (i := i - io.min) (R := tr) (j := j - jo.min) (C := tc) (by omega) (by omega) (by omega) (by omega)
  simp only [elementAddress, accOf, mul_one]
  omega

theorem accOf_element {p : Int} (h : ElementOf (accOf buf tr tc io jo) buf p) : buf ≤ p ∧ p < buf + tr * tc := by
  obtain ⟨i, j, hi, hj, rfl⟩ := h
  exact accOf_buffer hi hj

theorem accView (h : Multipliable A B C a b c) (hb : BufferFree A B C a b c buf (tr * tc))
    (hi : io.extent = tr) (hj : jo.extent = tc) (hio : Within io C.i) (hjo : Within jo C.j) :
    MulView A B (accOf buf tr tc io jo) a b buf where
  aBase := h.matA.base
  bBase := h.matB.base
  tBase := rfl
  rows i hii := h.rows i (hio i (by subst hi; exact hii))
  cols j hjj := h.cols j (hjo j (by subst hj; exact hjj))
  inner := h.mulView.inner
  inj i j i' j' h1 h2 h3 h4 e := by
    simp only [inDim, accOf] at h1 h2 h3 h4
    simp only [elementAddress, accOf, mul_one] at e
    have := dense_inj (C := tc) (i := i - io.min) (j := j - jo.min) (i' := i' - io.min) (j' := j' - jo.min)
      (by omega) (by omega) (by omega) (by omega) (by omega)
    omega
  sep p hp := by
    have := accOf_element hp
    have := hb p this.1 this.2
    exact ⟨this.1, this.2.1⟩

theorem accEinView (h : Multipliable A B C a b c) (hb : BufferFree A B C a b c buf (tr * tc)) (htr : 0 < tr)
    (htc : 0 < tc) (hi : io.extent = tr) (hj : jo.extent = tc) (hio : Within io C.i) (hjo : Within jo C.j) :
    EinView A B (accOf buf tr tc io jo) a b buf where
  view := accView h hb hi hj hio hjo
  fitsA := by
    rw [h.matA.rows.1, h.matA.cols.1]
    exact ⟨⟨fun h => absurd rfl h, fun h => absurd rfl h, fun h => absurd rfl h⟩,
      fun h => absurd rfl h, fun h => absurd rfl h, fun _ => h.matA.cols.2.2⟩
  fitsB := by
    rw [h.matB.rows.1, h.matB.cols.1]
    exact ⟨⟨fun h => absurd rfl h, fun h => absurd rfl h, fun h => absurd rfl h⟩,
      fun h => absurd rfl h, fun h => absurd rfl h, fun _ => h.matB.cols.2.2⟩
  fitsT := ⟨⟨fun h => absurd rfl h, fun _ => rfl, fun _ => rfl⟩, fun h => absurd rfl h, fun _ => rfl, fun _ => rfl⟩
  pos := ⟨htr.le, htc.le, h.matA.cols.2.1⟩
  strides := ⟨show tc ≠ 0 by omega, show (1 : Int) ≠ 0 by omega⟩
  rows := by
    have h1 := h.rows _ (hio io.min ⟨by omega, by omega⟩)
    have h2 := h.rows _ (hio (io.min + tr - 1) ⟨by omega, by omega⟩)
    unfold inDim at h1 h2
    unfold Encloses accOf
    simp only
    omega
  cols := by
    have h1 := h.cols _ (hjo jo.min ⟨by omega, by omega⟩)
    have h2 := h.cols _ (hjo (jo.min + tc - 1) ⟨by omega, by omega⟩)
    unfold inDim at h1 h2
    unfold Encloses accOf
    simp only
    omega
  inner := h.inner

/-- Reading the accumulators into the output, by a function of old value and accumulator. -/
theorem storeLoop_spec (h : Multipliable A B C a b c) (hb : BufferFree A B C a b c buf (tr * tc))
    (hi : io.extent = tr) (hj : jo.extent = tc) (hio : Within io C.i) (hjo : Within jo C.j)
    (htr : 0 < tr) (htc : 0 < tc) {V : Int → F} (f : F → F → F)
    (step : Option Int → Option Int → Mem F → Option (Mem F))
    (hstep : ∀ x y m, step (some x) (some y) m = some (m.set x (f (m x) (m y)))) (m : Mem F)
    (hV : ∀ i j, InInterval io i → InInterval jo j →
      V (elementAddress C c i j) = m (elementAddress (accOf buf tr tc io jo) buf i j)) :
    ∃ m', forRange io (fun m i => forRange jo (fun m j =>
        step ((tileOf C c tr tc io jo).at_ i j) ((accOf buf tr tc io jo).at_ i j) m) m) m = some m' ∧
      ∀ p, m' p = if Rect (elementAddress C c) io jo p then f (m p) (V p) else m p := by
  obtain ⟨m', e, -, h'⟩ := run_rect (elementAddress C c) (is := io) (js := jo) (by omega) (by omega)
    (fun m i j => step ((tileOf C c tr tc io jo).at_ i j) ((accOf buf tr tc io jo).at_ i j) m)
    (fun p s => f s (V p)) (fun p => buf ≤ p ∧ p < buf + tr * tc) m
    (fun i j i' j' h1 h2 h3 h4 e => h.injective i j i' j' (hio i h1) (hjo j h2) (hio i' h3) (hjo j' h4) e)
    (fun i j m1 h1 h2 hm1 => by
      have h1' : io.min ≤ i ∧ i < io.min + tr := by subst hi; exact h1
      have h2' : jo.min ≤ j ∧ j < jo.min + tc := by subst hj; exact h2
      rw [Image2.at_eq (a := tileOf C c tr tc io jo) (b := elementAddress C c io.min jo.min) rfl h1' h2',
        Image2.at_eq (a := accOf buf tr tc io jo) (b := buf) rfl h1' h2', hstep, tileOf_address h.matC,
        hV i j h1 h2, hm1 _ (accOf_buffer h1' h2')])
    (fun i j h1 h2 hbuf => (hb _ hbuf.1 hbuf.2).2.2 ⟨i, j, hio i h1, hjo j h2, rfl⟩)
    m (fun _ _ => rfl)
  exact ⟨m', e, h'⟩

/-- The contents of memory when a tile has been accumulated. -/
theorem acc_value (h : Multipliable A B C a b c) (hb : BufferFree A B C a b c buf (tr * tc))
    (hi : io.extent = tr) (hj : jo.extent = tc) (hio : Within io C.i) (hjo : Within jo C.j)
    {r m m' : Mem F} {W W' : Int → Int → F} (hW : IsTerm o A B C a b c r W)
    (hW' : IsTerm o A B (accOf buf tr tc io jo) a b buf r W') (ks : Interval)
    (hm' : ∀ p, m' p = if ElementOf (accOf buf tr tc io jo) buf p then
      (ints ks.min ks.extent).foldl (fun s k => o.add s (W' k p)) (zeroBuffer o buf (tr * tc) m p)
      else zeroBuffer o buf (tr * tc) m p) :
    (∀ i j, InInterval io i → InInterval jo j →
      valueOf o ks W (elementAddress C c i j) = m' (elementAddress (accOf buf tr tc io jo) buf i j)) ∧
    ∀ p, ¬ (buf ≤ p ∧ p < buf + tr * tc) → m' p = m p := by
  constructor
  · intro i j h1 h2
    have h1' : inDim (accOf buf tr tc io jo).i i := by subst hi; exact h1
    have h2' : inDim (accOf buf tr tc io jo).j j := by subst hj; exact h2
    rw [hm', if_pos ⟨i, j, h1', h2', rfl⟩, zeroBuffer, if_pos (accOf_buffer h1' h2')]
    show _ = valueOf o ks W' _
    rw [valueOf_eq hW ks (hio i h1) (hjo j h2), valueOf_eq hW' ks h1' h2']
  · intro p hp
    rw [hm', if_neg (fun h => hp (accOf_element h)), zeroBuffer, if_neg hp]

theorem zeroBuffer_operand (hb : BufferFree A B C a b c buf (tr * tc)) {r m : Mem F}
    (hm : ∀ p, Operands A B a b p → m p = r p) :
    ∀ p, Operands A B a b p → zeroBuffer o buf (tr * tc) m p = r p := by
  intro p hp
  unfold zeroBuffer
  rw [if_neg, hm p hp]
  rintro ⟨h1, h2⟩
  have := hb p h1 h2
  rcases hp with h | h
  · exact this.1 h
  · exact this.2.1 h

/-- One tile of `multiply_reduce_tiles`. -/
theorem multiplyTile_spec (h : Multipliable A B C a b c) (hb : BufferFree A B C a b c buf (tr * tc))
    (htr : 0 < tr) (htc : 0 < tc) (hi : io.extent = tr) (hj : jo.extent = tc) (hio : Within io C.i)
    (hjo : Within jo C.j) {r : Mem F} {W : Int → Int → F} (hW : IsTerm o A B C a b c r W) (m : Mem F)
    (hm : ∀ p, Operands A B a b p → m p = r p) :
    ∃ m', multiplyTile o tr tc buf A B C io jo m = some m' ∧ ∀ p, ¬ (buf ≤ p ∧ p < buf + tr * tc) →
      m' p = if Rect (elementAddress C c) io jo p then valueOf o A.j.val.toInterval W p else m p := by
  have hv := accView h hb hi hj hio hjo
  obtain ⟨W', hW'⟩ := exists_term hv o r
  have ei : (tileOf C c tr tc io jo).i.val.toInterval = io := by subst hi; rfl
  have ej : (tileOf C c tr tc io jo).j.val.toInterval = jo := by subst hj; rfl
  obtain ⟨m1, e1, -, h1⟩ := accumulateTile_spec hv hW' (ks := A.j.val.toInterval) (is := io) (js := jo)
    h.matA.cols.2.1 (by omega) (by omega) (fun _ h => h) (fun i hii => by subst hi; exact hii)
    (fun j hjj => by subst hj; exact hjj) (zeroBuffer o buf (tr * tc) m) (zeroBuffer_operand hb hm)
  have h1' : ∀ p, m1 p = if ElementOf (accOf buf tr tc io jo) buf p then _ else _ := fun p => (h1 p).trans (by
    refine if_congr ?_ rfl rfl
    subst hi hj
    rfl)
  obtain ⟨v1, v2⟩ := acc_value h hb hi hj hio hjo hW hW' A.j.val.toInterval h1'
  obtain ⟨m2, e2, h2⟩ := storeLoop_spec h hb hi hj hio hjo htr htc (fun _ v => v) copyAt (fun _ _ _ => rfl) m1 v1
  refine ⟨m2, ?_, fun p hp => ?_⟩
  · unfold multiplyTile
    simp only [crop_tile h.matC htr htc hi hj, compactRef_tile htr htc, ei, ej]
    rw [e1]
    exact e2
  · rw [h2 p, v2 p hp]

/-- One tile of `multiply_ein_reduce_tiles`. -/
theorem multiplyEinTile_spec (h : Multipliable A B C a b c) (hb : BufferFree A B C a b c buf (tr * tc))
    (htr : 0 < tr) (htc : 0 < tc) (hi : io.extent = tr) (hj : jo.extent = tc) (hio : Within io C.i)
    (hjo : Within jo C.j) (debug : Bool) {r : Mem F} {W : Int → Int → F} (hW : IsTerm o A B C a b c r W) (m : Mem F)
    (hm : ∀ p, Operands A B a b p → m p = r p) :
    ∃ m', multiplyEinTile o debug tr tc buf A B C io jo m = some m' ∧ ∀ p, ¬ (buf ≤ p ∧ p < buf + tr * tc) →
      m' p = if Rect (elementAddress C c) io jo p then valueOf o A.j.val.toInterval W p else m p := by
  have hv := accEinView h hb htr htc hi hj hio hjo
  obtain ⟨W', hW'⟩ := exists_term hv.view o r
  have ei : (tileOf C c tr tc io jo).i.val.toInterval = io := by subst hi; rfl
  have ej : (tileOf C c tr tc io jo).j.val.toInterval = jo := by subst hj; rfl
  obtain ⟨m1, e1, h1⟩ := multiplyEin_spec hv (i := 1) (j := 0) (k := 2) (Or.inr (Or.inr ⟨rfl, rfl, rfl⟩)) debug hW'
    (zeroBuffer o buf (tr * tc) m) (zeroBuffer_operand hb hm)
  obtain ⟨v1, v2⟩ := acc_value h hb hi hj hio hjo hW hW' A.j.val.toInterval h1
  obtain ⟨m2, e2, h2⟩ := storeLoop_spec h hb hi hj hio hjo htr htc (fun _ v => v) copyAt (fun _ _ _ => rfl) m1 v1
  refine ⟨m2, ?_, fun p hp => ?_⟩
  · unfold multiplyEinTile
    simp only [crop_tile h.matC htr htc hi hj, compactRef_tile htr htc, ei, ej]
    rw [e1]
    exact e2
  · rw [h2 p, v2 p hp]

/-- One tile of `multiply_reduce_tiles_z_order`. -/
theorem multiplyZTile_spec (h : Multipliable A B C a b c) (hb : BufferFree A B C a b c buf (tr * tc))
    (htr : 0 < tr) (htc : 0 < tc) (hi : io.extent = tr) (hj : jo.extent = tc) (hio : Within io C.i)
    (hjo : Within jo C.j) {ko : Interval} (hk : 0 ≤ ko.extent) (hko : Within ko A.j)
    {r : Mem F} {W : Int → Int → F} (hW : IsTerm o A B C a b c r W) (m : Mem F)
    (hm : ∀ p, Operands A B a b p → m p = r p) :
    ∃ m', multiplyZTile o tr tc buf A B C ko io jo m = some m' ∧ ∀ p, ¬ (buf ≤ p ∧ p < buf + tr * tc) →
      m' p = if Rect (elementAddress C c) io jo p then
        (if ko.min = A.j.val.min then valueOf o ko W p else o.add (m p) (valueOf o ko W p)) else m p := by
  have hv := accView h hb hi hj hio hjo
  obtain ⟨W', hW'⟩ := exists_term hv o r
  obtain ⟨m1, e1, -, h1⟩ := accumulateTile_spec hv hW' (ks := ko) (is := io) (js := jo)
    hk (by omega) (by omega) hko (fun i hii => by subst hi; exact hii)
    (fun j hjj => by subst hj; exact hjj) (zeroBuffer o buf (tr * tc) m) (zeroBuffer_operand hb hm)
  have h1' : ∀ p, m1 p = if ElementOf (accOf buf tr tc io jo) buf p then _ else _ := fun p => (h1 p).trans (by
    refine if_congr ?_ rfl rfl
    subst hi hj
    rfl)
  obtain ⟨v1, v2⟩ := acc_value h hb hi hj hio hjo hW hW' ko h1'
  by_cases hf : ko.min = A.j.val.min
  · obtain ⟨m2, e2, h2⟩ := storeLoop_spec h hb hi hj hio hjo htr htc (fun _ v => v) copyAt (fun _ _ _ => rfl) m1 v1
    refine ⟨m2, ?_, fun p hp => ?_⟩
    · unfold multiplyZTile
      simp only [crop_tile h.matC htr htc hi hj, compactRef_tile htr htc]
      rw [e1, Option.bind_eq_bind, Option.bind_some, if_pos (by rw [hf]; exact beq_self_eq_true _)]
      exact e2
    · rw [h2 p, v2 p hp, if_pos hf]
  · obtain ⟨m2, e2, h2⟩ := storeLoop_spec h hb hi hj hio hjo htr htc (fun s v => o.add s v) (addAt o)
      (fun _ _ _ => rfl) m1 v1
    refine ⟨m2, ?_, fun p hp => ?_⟩
    · unfold multiplyZTile
      simp only [crop_tile h.matC htr htc hi hj, compactRef_tile htr htc]
      rw [e1, Option.bind_eq_bind, Option.bind_some, if_neg (by simpa using hf)]
      exact e2
    · rw [h2 p, v2 p hp, if_neg hf]

end

theorem splittable_pieces {debug : Bool} {N : Int} {d : SDim} (hN : 0 < N) (h : Splittable debug N d) :
    requireAssert debug (splitStaticAssert N d.val.toInterval) = some () ∧
    ∃ l, (splitStatic N d.val.toInterval).iterate = some l ∧ (∀ x ∈ l, x.extent = N) ∧
      ∀ x, inDim d x ↔ ∃ i ∈ l, InInterval i x := by
  rcases h with h | ⟨rfl, h⟩
  · constructor
    · unfold splitStaticAssert
      rw [decide_eq_true (show d.val.toInterval.extent ≥ N from h)]
      exact requireAssert_true debug
    · obtain ⟨l, e, h1⟩ := (C25_assertion d.val.toInterval N hN (by show 0 < d.val.extent; omega)).1
        (decide_eq_true (show d.val.toInterval.extent ≥ N from h))
      exact ⟨l, e, h1⟩
  · refine ⟨rfl, [], C25_empty _ N hN h, by simp, fun x => ?_⟩
    unfold inDim
    simp only [List.not_mem_nil, false_and, exists_const, iff_false]
    omega

end Nda
