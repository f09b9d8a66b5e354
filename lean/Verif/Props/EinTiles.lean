import Verif.Lemmas.EinTiles
import Verif.Props.EinExamples
import Verif.Props.Split
/-
C66: an Einstein reduction may be done in pieces: "Various optimization strategies can be implemented by splitting
loops appropriately" (ein_reduce.h:399-403).
-/
namespace Nda
open Spec
variable {α : Type}

/-- C66: `tileOp` is the crop of the operand: its pointer and its dims are those of `a(...)`. -/
theorem C66_tile (k : Nat) (v : Interval) (base : Option Int) (dims : List SDim) (is : List Nat)
    (h : is.length = dims.length) :
    ∃ dims', tileOp k v (⟨.arr base dims, is⟩ : EinOp α) =
        ⟨.arr (ArrayRef.crop ⟨base, dims.map SDim.val⟩ (tileArgs k v is)).base dims', is⟩ ∧
      dims'.map SDim.val = (ArrayRef.crop ⟨base, dims.map SDim.val⟩ (tileArgs k v is)).shape :=
  ⟨_, rfl, tileDims_val h⟩

/-- C66: a piece of a reduction that passes the assertions passes them too. -/
theorem C66_assert (lhs : EinOp α) (rhs : EinExpr α) (h : EinInput lhs rhs) (k : Nat) (v : Interval)
    (hr : ∀ o ∈ lhs :: leaves rhs, TileInRange k v o) (ha : einAssert lhs rhs = true) :
    einAssert (tileOp k v lhs) (tileExpr k v rhs) = true :=
  einAssert_tile h hr ha

theorem updates_append (f : α → α → α) (A : Index → Int) (V : Index → α) (m : Mem α) (l l' : List Index) :
    updates f A V m (l ++ l') = updates f A V (updates f A V m l) l' := by
  unfold updates
  rw [List.foldl_append]

theorem updates_perm (f : α → α → α) [RightCommutative f] (A : Index → Int) (V : Index → α) (m : Mem α)
    {l l' : List Index} (h : l.Perm l') : updates f A V m l = updates f A V m l' := by
  funext a
  rw [updates_apply, updates_apply]
  exact ((h.filter _).map _).foldl_eq _

/-- The pieces, one after the other. -/
theorem tiles_updates (f : α → α → α) {lhs : EinOp α} {rhs : EinExpr α} (m : Mem α) (h : EinInput lhs rhs)
    (ha : einAssert lhs rhs = true) {lb : Int} {ld : List SDim} (hl : lhs.op = .arr (some lb) ld) (k : Nat)
    (hu : ∃ o ∈ lhs :: leaves rhs, OpUses o k) (vs : List Interval) (hv : ∀ v ∈ vs, 0 ≤ v.extent)
    (hr : ∀ v ∈ vs, ∀ o ∈ lhs :: leaves rhs, TileInRange k v o) (m0 : Mem α)
    (hm0 : ∀ a, ¬ OpElement lhs a → m0 a = m a) :
    vs.foldlM (fun m v => einReduce f (tileOp k v lhs) (tileExpr k v rhs) m) m0 =
      some (updates f (fun i => lb + offsetOf (ld.map SDim.val) (pick lhs.is i)) (fun i => valueAt m i rhs) m0
        (vs.flatMap fun v => boxList (einLoopShape (tileOp k v lhs) (tileExpr k v rhs)))) := by
  induction vs generalizing m0 with
  | nil => rfl
  | cons v vs ih =>
    have hv0 := hv v (by simp)
    have hr0 := hr v (by simp)
    have ok : ∀ o ∈ lhs :: leaves rhs, TileOk k v o := fun o ho => ⟨h.typed o ho, hr0 o ho⟩
    have h' := einInput_tile hv0 h hr0
    have ha' := einAssert_tile h hr0 ha
    obtain ⟨lb', hl'⟩ : ∃ lb', (tileOp k v lhs).op = .arr (some lb') (tileDims k v lhs.is ld) := by
      obtain ⟨op, is⟩ := lhs
      simp only at hl
      subst hl
      exact ⟨_, rfl⟩
    have hli : lhs.is.length = ld.length := by
      have := h.typed lhs (by simp)
      obtain ⟨op, is⟩ := lhs
      simp only at hl
      subst hl
      exact this.1
    have hcrop : (ArrayRef.crop ⟨some lb, ld.map SDim.val⟩ (tileArgs k v lhs.is)).base = some lb' := by
      obtain ⟨op, is⟩ := lhs
      simp only at hl
      subst hl
      simp only [tileOp, EinSrc.arr.injEq] at hl'
      exact hl'.1
    have hmem : ∀ i, i ∈ boxList (einLoopShape (tileOp k v lhs) (tileExpr k v rhs)) ↔
        LoopIndex (lhs :: leaves rhs) i ∧ InIvl v (i.getD k 0) := by
      intro i
      rw [mem_loop h' ha', tile_cons, tile_loopIndex ok hu]
    have hel : ∀ i, LoopIndex (lhs :: leaves rhs) i →
        OpElement lhs (lb + offsetOf (ld.map SDim.val) (pick lhs.is i)) := by
      intro i hi
      have := hi.2.1 lhs (by simp)
      obtain ⟨op, is⟩ := lhs
      simp only at hl
      subst hl
      exact ⟨lb, _, rfl, this, rfl⟩
    have e1 : einReduce f (tileOp k v lhs) (tileExpr k v rhs) m0 =
        some (updates f (fun i => lb + offsetOf (ld.map SDim.val) (pick lhs.is i)) (fun i => valueAt m i rhs) m0
          (boxList (einLoopShape (tileOp k v lhs) (tileExpr k v rhs)))) := by
      rw [einReduce_updates f m0 h' ha' hl']
      congr 1
      refine updates_congr f m0 ?_ ?_
      · intro i hi
        have hadr := tile_address (k := k) (v := v) (base := some lb) hli (pick lhs.is i) (by rw [pick_length, hli])
        rw [hcrop] at hadr
        simp only [Option.map_some, Option.some.injEq] at hadr
        rw [tileOp_is]
        exact hadr
      · intro i hi
        have hi' := ((hmem i).1 hi).1.2.1
        rw [tile_value (fun o ho => ok o (by simp [ho])) (fun o ho => h.backed o (by simp [ho]))
          (fun o ho => hi' o (by simp [ho]))]
        refine valueAt_congr (fun o ho => hi' o (by simp [ho])) (fun o ho => h.backed o (by simp [ho])) ?_
        intro o ho a hoa
        exact hm0 a fun hla => h.separate o ho a hla hoa
    rw [List.foldlM_cons, e1, List.flatMap_cons, updates_append]
    refine ih (fun v hv' => hv v (by simp [hv'])) (fun v hv' => hr v (by simp [hv'])) _ ?_
    intro a hna
    rw [updates_apply, List.filter_eq_nil_iff.2]
    · exact hm0 a hna
    · intro i hi
      simp only [decide_eq_true_eq]
      rintro rfl
      exact hna (hel i ((hmem i).1 hi).1)

theorem tiles_mem {lhs : EinOp α} {rhs : EinExpr α} (h : EinInput lhs rhs)
    (ha : einAssert lhs rhs = true) (k : Nat) (hu : ∃ o ∈ lhs :: leaves rhs, OpUses o k) (v : Interval)
    (hv : 0 ≤ v.extent) (hr : ∀ o ∈ lhs :: leaves rhs, TileInRange k v o) (i : Index) :
    i ∈ boxList (einLoopShape (tileOp k v lhs) (tileExpr k v rhs)) ↔
        LoopIndex (lhs :: leaves rhs) i ∧ InIvl v (i.getD k 0) := by
  rw [mem_loop (einInput_tile hv h hr) (einAssert_tile h hr ha), tile_cons,
    tile_loopIndex (fun o ho => ⟨h.typed o ho, hr o ho⟩) hu]

/-- C66: instead of one reduction, crop all operands to disjoint intervals that together cover the range of loop
index `k`, and reduce one after the other, in any order of the intervals: the memory is the same in the end.  (For
operators whose updates commute: `+=`, `-=`, `*=`.) -/
theorem C66_tiles (f : α → α → α) [RightCommutative f] (lhs : EinOp α) (rhs : EinExpr α) (m : Mem α)
    (h : EinInput lhs rhs) (ha : einAssert lhs rhs = true) (lb : Int) (ld : List SDim)
    (hl : lhs.op = .arr (some lb) ld) (k : Nat) (hu : ∃ o ∈ lhs :: leaves rhs, OpUses o k) (vs : List Interval)
    (hv : ∀ v ∈ vs, 0 ≤ v.extent) (hr : ∀ v ∈ vs, ∀ o ∈ lhs :: leaves rhs, TileInRange k v o)
    (hdisj : vs.Pairwise fun v w => ∀ x, InIvl v x → ¬ InIvl w x)
    (hcover : ∀ i, LoopIndex (lhs :: leaves rhs) i → ∃ v ∈ vs, InIvl v (i.getD k 0)) :
    ∃ m', einReduce f lhs rhs m = some m' ∧
      vs.foldlM (fun m v => einReduce f (tileOp k v lhs) (tileExpr k v rhs) m) m = some m' := by
  refine ⟨_, einReduce_updates f m h ha hl, ?_⟩
  rw [tiles_updates f m h ha hl k hu vs hv hr m fun _ _ => rfl]
  congr 1
  refine updates_perm f _ _ m ?_
  refine (List.perm_ext_iff_of_nodup ?_ (boxList_nodup _)).2 ?_
  · rw [List.nodup_flatMap]
    refine ⟨fun v _ => boxList_nodup _, ?_⟩
    refine (List.pairwise_iff_forall_sublist.2 ?_)
    intro v w hs
    have h1 : v ∈ vs := hs.subset (by simp)
    have h2 : w ∈ vs := hs.subset (by simp)
    intro i hi hj
    have hi' := ((tiles_mem h ha k hu v (hv v h1) (hr v h1) i).1 hi).2
    have hj' := ((tiles_mem h ha k hu w (hv w h2) (hr w h2) i).1 hj).2
    exact (List.pairwise_iff_forall_sublist.1 hdisj hs) _ hi' hj'
  · intro i
    rw [List.mem_flatMap, mem_loop h ha]
    constructor
    · rintro ⟨v, hv', hi⟩
      exact ((tiles_mem h ha k hu v (hv v hv') (hr v hv') i).1 hi).1
    · intro hi
      obtain ⟨v, hv', hx⟩ := hcover i hi
      exact ⟨v, hv', (tiles_mem h ha k hu v (hv v hv') (hr v hv') i).2 ⟨hi, hx⟩⟩

/-- C66: if `k` is the outermost loop and the intervals are taken in ascending order, this holds for every operator,
even for `=` and for floating point sums: each element is updated by the same values in the same order. -/
theorem C66_outermost (f : α → α → α) (lhs : EinOp α) (rhs : EinExpr α) (m : Mem α)
    (h : EinInput lhs rhs) (ha : einAssert lhs rhs = true) (lb : Int) (ld : List SDim)
    (hl : lhs.op = .arr (some lb) ld) (k : Nat) (hk : k + 1 = loopRank (lhs :: leaves rhs))
    (hu : ∃ o ∈ lhs :: leaves rhs, OpUses o k) (vs : List Interval)
    (hv : ∀ v ∈ vs, 0 ≤ v.extent) (hr : ∀ v ∈ vs, ∀ o ∈ lhs :: leaves rhs, TileInRange k v o)
    (hasc : vs.Pairwise fun v w => v.min + v.extent ≤ w.min)
    (hcover : ∀ i, LoopIndex (lhs :: leaves rhs) i → ∃ v ∈ vs, InIvl v (i.getD k 0)) :
    ∃ m', einReduce f lhs rhs m = some m' ∧
      vs.foldlM (fun m v => einReduce f (tileOp k v lhs) (tileExpr k v rhs) m) m = some m' := by
  refine ⟨_, einReduce_updates f m h ha hl, ?_⟩
  rw [tiles_updates f m h ha hl k hu vs hv hr m fun _ _ => rfl]
  congr 2
  refine loopIndices_unique ?_ (boxList_pairwise _) ?_
  · rw [List.pairwise_flatMap]
    refine ⟨fun v _ => boxList_pairwise _, ?_⟩
    refine (List.pairwise_iff_forall_sublist.2 ?_)
    intro v w hs i hi j hj
    have h1 : v ∈ vs := hs.subset (by simp)
    have h2 : w ∈ vs := hs.subset (by simp)
    obtain ⟨hi1, hi2⟩ := (tiles_mem h ha k hu v (hv v h1) (hr v h1) i).1 hi
    obtain ⟨hj1, hj2⟩ := (tiles_mem h ha k hu w (hv w h2) (hr w h2) j).1 hj
    have hvw := List.pairwise_iff_forall_sublist.1 hasc hs
    have hki : k < i.length := by rw [hi1.1]; omega
    have hkj : k < j.length := by rw [hj1.1]; omega
    rw [List.getD_eq_getElem _ _ hki] at hi2
    rw [List.getD_eq_getElem _ _ hkj] at hj2
    refine ⟨by rw [hi1.1, hj1.1], k, i[k], j[k], List.getElem?_eq_getElem hki, List.getElem?_eq_getElem hkj, ?_, ?_⟩
    · have := hi2.2
      have := hj2.1
      omega
    · intro t ht
      rw [List.getElem?_eq_none (by rw [hi1.1]; omega), List.getElem?_eq_none (by rw [hj1.1]; omega)]
  · intro i
    rw [List.mem_flatMap, mem_loop h ha]
    constructor
    · rintro ⟨v, hv', hi⟩
      exact ((tiles_mem h ha k hu v (hv v hv') (hr v hv') i).1 hi).1
    · intro hi
      obtain ⟨v, hv', hx⟩ := hcover i hi
      exact ⟨v, hv', (tiles_mem h ha k hu v (hv v hv') (hr v hv') i).2 ⟨hi, hx⟩⟩

theorem tileInRange_sub {k : Nat} {v w : Interval} {o : EinOp α} (h : TileInRange k v o) (h1 : v.min ≤ w.min)
    (h2 : w.min + w.extent ≤ v.min + v.extent) : TileInRange k w o := by
  intro p d hp hd
  have := h p d hp hd
  omega

theorem tiles_inside : ∀ {l : List Interval} {m e : Int}, Tiles m l e →
    ∀ i ∈ l, m ≤ i.min ∧ 0 < i.extent ∧ i.min + i.extent ≤ e := by
  have le : ∀ {l : List Interval} {m e : Int}, Tiles m l e → m ≤ e := by
    intro l
    induction l with
    | nil => intro m e h; exact le_of_eq h
    | cons i l ih =>
      intro m e h
      have := ih h.2.2
      have := h.2.1
      omega
  intro l
  induction l with
  | nil => intro m e _ i hi; cases hi
  | cons i l ih =>
    intro m e h j hj
    rcases List.mem_cons.1 hj with rfl | hj
    · have h1 := h.1
      have := le h.2.2
      exact ⟨by omega, h.2.1, by omega⟩
    · have := ih h.2.2 j hj
      have := h.2.1
      omega

/-- C66: `for (auto ko : split(v, n)) ein_reduce(...)` on the crops to `ko` is the reduction over all of `v`. -/
theorem C66_split (f : α → α → α) [RightCommutative f] (lhs : EinOp α) (rhs : EinExpr α) (m : Mem α)
    (h : EinInput lhs rhs) (ha : einAssert lhs rhs = true) (lb : Int) (ld : List SDim)
    (hl : lhs.op = .arr (some lb) ld) (k : Nat) (hu : ∃ o ∈ lhs :: leaves rhs, OpUses o k) (v : Interval) (n : Int)
    (hn : 0 < n) (hv : 0 ≤ v.extent) (hr : ∀ o ∈ lhs :: leaves rhs, TileInRange k v o)
    (hcover : ∀ i, LoopIndex (lhs :: leaves rhs) i → InIvl v (i.getD k 0)) :
    ∃ l m', (splitDynamic v n).iterate = some l ∧ einReduce f lhs rhs m = some m' ∧
      l.foldlM (fun m w => einReduce f (tileOp k w lhs) (tileExpr k w rhs) m) m = some m' := by
  obtain ⟨l, h1, ht, -⟩ := C24_partition v n hn hv
  obtain ⟨l', h1', hc, hd⟩ := C24_each_index_once v n hn hv
  obtain rfl : l = l' := Option.some.inj (h1.symm.trans h1')
  obtain ⟨m', e1, e2⟩ := C66_tiles f lhs rhs m h ha lb ld hl k hu l
    (fun w hw => (tiles_inside ht w hw).2.1.le)
    (fun w hw o ho => tileInRange_sub (hr o ho) (tiles_inside ht w hw).1 (tiles_inside ht w hw).2.2)
    (hd.imp fun hab x hx hy => hab x ⟨hx, hy⟩)
    (fun i hi => (hc _).1 (hcover i hi))
  exact ⟨l, m', h1, e1, e2⟩

/-- C66: the same for `split<N>(v)` if `N` divides the extent of `v`; otherwise see `C66_overlap_counterexample`. -/
theorem C66_split_static (f : α → α → α) [RightCommutative f] (lhs : EinOp α) (rhs : EinExpr α) (m : Mem α)
    (h : EinInput lhs rhs) (ha : einAssert lhs rhs = true) (lb : Int) (ld : List SDim)
    (hl : lhs.op = .arr (some lb) ld) (k : Nat) (hu : ∃ o ∈ lhs :: leaves rhs, OpUses o k) (v : Interval) (N : Int)
    (hN : 0 < N) (hv : 0 < v.extent) (hdvd : N ∣ v.extent) (hr : ∀ o ∈ lhs :: leaves rhs, TileInRange k v o)
    (hcover : ∀ i, LoopIndex (lhs :: leaves rhs) i → InIvl v (i.getD k 0)) :
    ∃ l m', (splitStatic N v).iterate = some l ∧ einReduce f lhs rhs m = some m' ∧
      l.foldlM (fun m w => einReduce f (tileOp k w lhs) (tileExpr k w rhs) m) m = some m' := by
  have hle : N ≤ v.extent := Int.le_of_dvd hv hdvd
  obtain ⟨l, h1, -, hceil, hp⟩ := C25_intervals v N hN hle
  obtain ⟨l', h1', hc, -⟩ := C25_cover v N hN hle
  obtain rfl : l = l' := Option.some.inj (h1.symm.trans h1')
  obtain ⟨q, hq⟩ := hdvd
  have hlen : (l.length : Int) = q := by
    obtain ⟨a, b⟩ := hceil
    rw [hq] at a b
    have a' : ((l.length : Int) - 1) < q := by
      by_contra hcon
      have : N * q ≤ N * ((l.length : Int) - 1) := mul_le_mul_of_nonneg_left (by omega) hN.le
      rw [mul_comm N ((l.length : Int) - 1)] at this
      omega
    have b' : q ≤ (l.length : Int) := by
      by_contra hcon
      have : N * ((l.length : Int) + 1) ≤ N * q := mul_le_mul_of_nonneg_left (by omega) hN.le
      rw [mul_add, mul_comm N (l.length : Int)] at this
      omega
    omega
  have hmin : ∀ (t : Nat) (w : Interval), l[t]? = some w → w.extent = N ∧ w.min = v.min + N * t := by
    intro t w hw
    obtain ⟨a, b, c⟩ := hp t w hw
    refine ⟨a, ?_⟩
    have ht : t < l.length := (List.getElem?_eq_some_iff.1 hw).1
    by_cases hlast : t + 1 < l.length
    · exact b hlast
    · rw [c (by omega), hq]
      have : q = (t : Int) + 1 := by omega
      rw [this, mul_add]
      omega
  have hin : ∀ w ∈ l, v.min ≤ w.min ∧ 0 < w.extent ∧ w.min + w.extent ≤ v.min + v.extent := by
    intro w hw
    obtain ⟨t, ht⟩ := List.mem_iff_getElem?.1 hw
    obtain ⟨a, b⟩ := hmin t w ht
    have hi1 : InIvl w w.min := ⟨le_refl _, by omega⟩
    have hi2 : InIvl w (w.min + w.extent - 1) := ⟨by omega, by omega⟩
    have j1 := (hc w.min).2 ⟨w, hw, hi1⟩
    have j2 := (hc (w.min + w.extent - 1)).2 ⟨w, hw, hi2⟩
    exact ⟨j1.1, by omega, by have := j2.2; omega⟩
  obtain ⟨m', e1, e2⟩ := C66_tiles f lhs rhs m h ha lb ld hl k hu l
    (fun w hw => (hin w hw).2.1.le)
    (fun w hw o ho => tileInRange_sub (hr o ho) (hin w hw).1 (hin w hw).2.2)
    (by
      rw [List.pairwise_iff_getElem]
      intro s t hs ht hst x hx hy
      obtain ⟨a1, b1⟩ := hmin s _ (List.getElem?_eq_getElem hs)
      obtain ⟨a2, b2⟩ := hmin t _ (List.getElem?_eq_getElem ht)
      have : N * ((s : Int) + 1) ≤ N * t := mul_le_mul_of_nonneg_left (by omega) hN.le
      rw [mul_add] at this
      have := hx.2
      have := hy.1
      omega)
    (fun i hi => (hc _).1 (hcover i hi))
  exact ⟨l, m', h1, e1, e2⟩

/-- C66: `split` of the outermost loop changes nothing for any operator. -/
theorem C66_split_outermost (f : α → α → α) (lhs : EinOp α) (rhs : EinExpr α) (m : Mem α)
    (h : EinInput lhs rhs) (ha : einAssert lhs rhs = true) (lb : Int) (ld : List SDim)
    (hl : lhs.op = .arr (some lb) ld) (k : Nat) (hk : k + 1 = loopRank (lhs :: leaves rhs))
    (hu : ∃ o ∈ lhs :: leaves rhs, OpUses o k) (v : Interval) (n : Int)
    (hn : 0 < n) (hv : 0 ≤ v.extent) (hr : ∀ o ∈ lhs :: leaves rhs, TileInRange k v o)
    (hcover : ∀ i, LoopIndex (lhs :: leaves rhs) i → InIvl v (i.getD k 0)) :
    ∃ l m', (splitDynamic v n).iterate = some l ∧ einReduce f lhs rhs m = some m' ∧
      l.foldlM (fun m w => einReduce f (tileOp k w lhs) (tileExpr k w rhs) m) m = some m' := by
  obtain ⟨l, h1, ht, -⟩ := C24_partition v n hn hv
  obtain ⟨l', h1', hc, -⟩ := C24_each_index_once v n hn hv
  obtain rfl : l = l' := Option.some.inj (h1.symm.trans h1')
  obtain ⟨m', e1, e2⟩ := C66_outermost f lhs rhs m h ha lb ld hl k hk hu l
    (fun w hw => (tiles_inside ht w hw).2.1.le)
    (fun w hw o ho => tileInRange_sub (hr o ho) (tiles_inside ht w hw).1 (tiles_inside ht w hw).2.2)
    ht.pairwise
    (fun i hi => (hc _).1 (hcover i hi))
  exact ⟨l, m', h1, e1, e2⟩

/-! ### Negative part and examples -/

/-- Shapes of the examples. -/
theorem nonNeg_of_all {s : Shape} (h : s.all (fun d => decide (0 ≤ d.extent)) = true) : NonNeg s :=
  fun d hd => of_decide_eq_true (List.all_eq_true.1 h d hd)

/-- C66, negative part: overlapping intervals add twice, as happens with `split` (array.h:611-625) when the extent is
not a multiple of the factor: the last interval is moved back to fit (C25).  `x` = (1, 1, 1) at 0 summed to 9, in pieces
[0, 2) and [1, 3). -/
theorem C66_overlap_counterexample :
    let x : EinOp Int := einVec 0 ⟨anyDim, ⟨0, 3, 1⟩⟩ 0
    let r : EinOp Int := einScal 9
    let m : Mem Int := fun a => if a < 3 then 1 else 0
    ∃ m1 m2, einReduce (· + ·) r (.op x) m = some m1 ∧ m1 9 = 3 ∧
      [Interval.mk 0 2, Interval.mk 1 2].foldlM
        (fun m v => einReduce (· + ·) (tileOp 0 v r) (tileExpr 0 v (.op x)) m) m = some m2 ∧ m2 9 = 4 := by
  intro x r m
  simp only [List.foldlM_cons, List.foldlM_nil]
  unfold einReduce
  rw [forEachIndex_eq (nonNeg_of_all (by decide +kernel)), forEachIndex_eq (nonNeg_of_all (by decide +kernel)),
    forEachIndex_eq (nonNeg_of_all (by decide +kernel))]
  exact ⟨_, _, rfl, by decide +kernel, rfl, by decide +kernel⟩

/-- The crop of `ein<0, 2>(A)` to [3, 5) in the second dim. -/
example : tileOp 2 ⟨3, 2⟩ (einMat 100 ⟨anyDim, ⟨0, 4, 1⟩⟩ ⟨anyDim, ⟨1, 6, 4⟩⟩ 0 2 : EinOp Int) =
    einMat 108 ⟨anyDim, ⟨0, 4, 1⟩⟩ ⟨anyDim, ⟨3, 2, 4⟩⟩ 0 2 := rfl

/-- A dot product in two pieces, the later one first: (1, 2, 3) and (4, 5, 6). -/
example :
    let x : EinExpr Int := .op (einVec 1 ⟨anyDim, ⟨0, 3, 1⟩⟩ 0)
    let y : EinExpr Int := .op (einVec 4 ⟨anyDim, ⟨0, 3, 1⟩⟩ 0)
    let r : EinOp Int := einScal 9
    let m : Mem Int := fun a => if a < 9 then a else 0
    ∃ m2, [Interval.mk 2 1, Interval.mk 0 2].foldlM
        (fun m v => einReduce (· + ·) (tileOp 0 v r) (tileExpr 0 v (.binary (· * ·) x y)) m) m = some m2 ∧
      m2 9 = 32 := by
  intro x y r m
  simp only [List.foldlM_cons, List.foldlM_nil]
  unfold einReduce
  rw [forEachIndex_eq (nonNeg_of_all (by decide +kernel)), forEachIndex_eq (nonNeg_of_all (by decide +kernel))]
  exact ⟨_, rfl, by decide +kernel⟩

/-- The hypotheses of `C66_split` for the sum of 7 elements, by threes. -/
example (m : Mem Int) :
    let x : EinOp Int := einVec 0 ⟨anyDim, ⟨2, 7, 1⟩⟩ 0
    let r : EinOp Int := einScal 9
    ∃ l m', (splitDynamic ⟨2, 7⟩ 3).iterate = some l ∧ einReduce (· + ·) r (.op x) m = some m' ∧
      l.foldlM (fun m w => einReduce (· + ·) (tileOp 0 w r) (tileExpr 0 w (.op x)) m) m = some m' := by
  intro x r
  refine C66_split (· + ·) r (.op x) m ?_ (by decide +kernel) 9 [] rfl 0 ⟨x, by simp [leaves], by simp [x, OpUses, einVec]⟩
    ⟨2, 7⟩ 3 (by decide) (by decide) ?_ ?_
  · constructor
    · intro o ho
      simp only [leaves, List.mem_cons, List.not_mem_nil, or_false] at ho
      rcases ho with rfl | rfl
      · exact ⟨rfl, by simp⟩
      · refine ⟨rfl, ?_⟩
        intro d hd
        simp only [List.mem_cons, List.not_mem_nil, or_false] at hd
        subst hd
        exact (goodDim_any _ (by decide)).1
    · intro o ho
      simp only [leaves, List.mem_cons, List.not_mem_nil, or_false] at ho
      rcases ho with rfl | rfl <;> exact nonNeg_of_all (by decide +kernel)
    · intro o ho
      simp only [leaves, List.mem_cons, List.not_mem_nil, or_false] at ho
      rcases ho with rfl | rfl
      · intro p q k d e h1
        simp [r, einScal] at h1
      · intro p q k d e h1 h2 h3 h4
        have hp : p = 0 := by
          rcases p with _ | p
          · rfl
          · simp [x, einVec] at h1
        have hq : q = 0 := by
          rcases q with _ | q
          · rfl
          · simp [x, einVec] at h2
        subst hp; subst hq
        rw [h3] at h4
        cases h4
        exact ⟨rfl, rfl⟩
    · intro o ho
      simp only [leaves, List.mem_cons, List.not_mem_nil, or_false] at ho
      rcases ho with rfl | rfl <;> (intro h; cases h)
    · intro i j hi hj _
      match i, j, hi, hj with
      | [], [], _, _ => rfl
    · rintro o ho a ⟨b, i, h1, hi, rfl⟩ hoa
      simp only [leaves, List.mem_cons, List.not_mem_nil, or_false] at ho
      subst ho
      obtain ⟨b', j, h2, hj, he⟩ := hoa
      cases h1; cases h2
      match i, j, hi, hj with
      | [], [y], _, ⟨h3, _⟩ =>
        have h3 : 2 ≤ y ∧ y < 2 + 7 := h3
        have he : (9 : Int) + 0 = 0 + ((y - 2) * 1 + 0) := he
        omega
  · intro o ho
    simp only [leaves, List.mem_cons, List.not_mem_nil, or_false] at ho
    rcases ho with rfl | rfl
    · intro p d h1
      simp [r, einScal] at h1
    · intro p d h1 h2
      rcases p with _ | p
      · cases h2
        decide
      · simp [x, einVec] at h1
  · intro i hi
    have h1 := hi.2.1 x (by simp [leaves])
    exact h1.1

end Nda
