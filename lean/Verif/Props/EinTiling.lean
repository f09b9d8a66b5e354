import Verif.Lemmas.EinTiling
import Verif.Props.EinDoc
import Verif.Props.EinExamples
/-
C98: Einstein reductions done tile by tile (README.md:328-345).  `Verif/Model/EinTiling.lean` has the loops; `ts` is any
ordering of the tiles that the nested loops produce.  `TileInput` collects what `ein_reduce` of the whole array needs.
-/
namespace Nda
open Spec
variable {α : Type}

section
variable {cs : List Cut} {lb : Int} {dims : List SDim} {is : List Nat} {rhs : EinExpr α} {ts ts' : List (List Arg)}

private theorem tiles_ok (H : TileInput dims is lb rhs) (hc : List.Forall₂ CutOk cs (values dims))
    (e : tileLoops cs (values dims) = some ts') (hp : ts.Perm ts') :
    (∀ t ∈ ts, List.Forall₂ PieceTyped cs t) ∧ Tiled (values dims) ts ∧
      (List.Forall₂ NoOverlap cs (values dims) → ∀ r, InBox (values dims) r → tilesWith ts r = 1) ∧
      ∀ r, InBox (values dims) r → 1 ≤ tilesWith ts r := by
  have hnn : NonNeg (values dims) := H.input.nonNeg _ (List.mem_cons_self ..)
  obtain ⟨h1, h2⟩ := tiled_perm hc hnn e hp
  have hpos : ∀ r, InBox (values dims) r → 1 ≤ tilesWith ts r := by
    intro r hr
    obtain ⟨t, ht, hti⟩ := h1.cover r hr
    exact List.countP_pos_iff.2 ⟨t, ht, (hasIndex_iff t r).2 hti⟩
  refine ⟨fun t ht => tileLoops_typed hc hnn e t (hp.mem_iff.1 ht), h1, fun hno r hr => ?_, hpos⟩
  refine le_antisymm ?_ (hpos r hr)
  have hd := h2 hno
  clear hpos h1 h2 hp
  unfold tilesWith
  induction ts with
  | nil => simp
  | cons t ts ih =>
    rw [List.pairwise_cons] at hd
    rw [List.countP_cons]
    by_cases ht : hasIndex t r = true
    · rw [if_pos ht]
      have : ts.countP (fun t => hasIndex t r) = 0 := by
        rw [List.countP_eq_zero]
        intro u hu hur
        exact hd.1 u hu r ⟨(hasIndex_iff t r).1 ht, (hasIndex_iff u r).1 hur⟩
      omega
    · rw [if_neg ht]
      exact ih hd.2

private theorem mem_ext' {m1 m2 m : Mem α}
    (h : ∀ r, InBox (values dims) r → m1 (lb + offsetOf (values dims) r) = m2 (lb + offsetOf (values dims) r))
    (h1 : ∀ x, (∀ r, InBox (values dims) r → x ≠ lb + offsetOf (values dims) r) → m1 x = m x)
    (h2 : ∀ x, (∀ r, InBox (values dims) r → x ≠ lb + offsetOf (values dims) r) → m2 x = m x) : m1 = m2 := by
  funext x
  by_cases hx : ∃ r, InBox (values dims) r ∧ x = lb + offsetOf (values dims) r
  · obtain ⟨r, hr, rfl⟩ := hx
    exact h r hr
  · push Not at hx
    rw [h1 x hx, h2 x hx]

/-- C98: the loops end, pass all the assertions of the library, and leave in element `r` of the result its old value
updated once for every tile that contains it.  One update overwrites the element if the tile is filled, and then folds
the operation over exactly the values that the reduction of the whole array would use, in the same order.  Nothing
else changes. -/
theorem C98_exact (H : TileInput dims is lb rhs) (hc : List.Forall₂ CutOk cs (values dims))
    (e : tileLoops cs (values dims) = some ts') (hp : ts.Perm ts') (debug : Bool) (f : α → α → α) (init : Option α)
    (m : Mem α) :
    ∃ m', reduceTiles debug f init cs (some lb) dims is rhs ts m = some m' ∧
      (∀ r, InBox (values dims) r → ∃ l, ContributesTo (⟨.arr (some lb) dims, is⟩ : EinOp α) rhs r l ∧
        m' (lb + offsetOf (values dims) r) =
          (updated f init m rhs l)^[tilesWith ts r] (m (lb + offsetOf (values dims) r))) ∧
      (∀ x, (∀ r, InBox (values dims) r → x ≠ lb + offsetOf (values dims) r) → m' x = m x) ∧
      (∀ r, InBox (values dims) r → 1 ≤ tilesWith ts r) ∧
      (List.Forall₂ NoOverlap cs (values dims) → ∀ r, InBox (values dims) r → tilesWith ts r = 1) := by
  obtain ⟨h1, h2, h3, h4⟩ := tiles_ok H hc e hp
  obtain ⟨m', e', g1, g2⟩ := reduceTiles_spec (cs := cs) H ts h1 h2.piece debug f init m m (fun _ _ => rfl)
  exact ⟨m', e', fun r hr => ⟨_, contributes_exists H r, g1 r _ hr (contributes_exists H r)⟩, g2, h4, h3⟩

/-- What the reduction of the whole array does, in the same terms. -/
private theorem whole_spec (H : TileInput dims is lb rhs) (debug : Bool) (f : α → α → α) (init : Option α) (m : Mem α) :
    ∃ m', einReduceDebug debug f (⟨.arr (some lb) dims, is⟩ : EinOp α) rhs (fillReduced init ⟨some lb, values dims⟩ m) =
        some m' ∧
      (∀ r l, InBox (values dims) r → ContributesTo (⟨.arr (some lb) dims, is⟩ : EinOp α) rhs r l →
        m' (lb + offsetOf (values dims) r) = updated f init m rhs l (m (lb + offsetOf (values dims) r))) ∧
      ∀ x, (∀ r, InBox (values dims) r → x ≠ lb + offsetOf (values dims) r) → m' x = m x := by
  obtain ⟨m1, hm1, f1, f2⟩ : ∃ m1 : Mem α, fillReduced init ⟨some lb, values dims⟩ m = m1 ∧
      (∀ i, InBox (values dims) i → m1 (lb + offsetOf (values dims) i) =
        init.getD (m (lb + offsetOf (values dims) i))) ∧
      ∀ x, (∀ i, InBox (values dims) i → x ≠ lb + offsetOf (values dims) i) → m1 x = m x := by
    cases init with
    | none => exact ⟨m, rfl, fun _ _ => rfl, fun _ _ => rfl⟩
    | some v =>
      obtain ⟨g1, g2⟩ := C19_fill ⟨some lb, values dims⟩ lb rfl (H.input.nonNeg _ (List.mem_cons_self ..)) v m
      exact ⟨_, rfl, g1, g2⟩
  obtain ⟨m', hm', h1, h2⟩ := C41_fold f (⟨.arr (some lb) dims, is⟩ : EinOp α) rhs m1 H.input H.assert lb dims rfl
  refine ⟨m', ?_, ?_, ?_⟩
  · unfold einReduceDebug
    rw [H.assert, hm1]
    simp only [requireAssert, Bool.not_true, Bool.and_false, Bool.false_eq_true, if_false, Option.bind_eq_bind,
      Option.bind_some]
    exact hm'
  · intro r l hr hl
    obtain ⟨l', g1, g2, g3⟩ := h1 r hr
    obtain rfl : l' = l := ContributesTo.unique (lhs := (⟨.arr (some lb) dims, is⟩ : EinOp α)) ⟨g1, g2⟩ hl
    refine g3.trans ?_
    show _ = l'.foldl _ _
    rw [show m1 (lb + offsetOf (dims.map SDim.val) r) = _ from f1 r hr]
    refine List.foldl_ext _ _ _ fun x i hi => ?_
    congr 1
    have hli := ((g2 i).1 hi).1
    refine valueAt_congr (fun o ho => hli.2.1 o (by simp [ho])) (fun o ho => H.input.backed o (by simp [ho])) ?_
    intro o ho a hoa
    refine f2 a ?_
    rintro r hr rfl
    exact H.input.separate o ho _ ⟨lb, r, rfl, hr, rfl⟩ hoa
  · intro x hx
    rw [h2 x, f2 x hx]
    rintro ⟨b, i, hb, hi, rfl⟩
    have hb2 : some lb = some b := hb
    rw [Option.some.injEq] at hb2
    subst hb2
    exact hx i hi rfl

/-- C98: `fill` and `ein_reduce` of every tile is `fill` and `ein_reduce` of the whole array, exactly and for any
operation, even if the tiles overlap (as those of `split<N>` do if `N` does not divide the extent). -/
theorem C98_fill (H : TileInput dims is lb rhs) (hc : List.Forall₂ CutOk cs (values dims))
    (e : tileLoops cs (values dims) = some ts') (hp : ts.Perm ts') (debug : Bool) (f : α → α → α) (v : α) (m : Mem α) :
    reduceTiles debug f (some v) cs (some lb) dims is rhs ts m =
      einReduceDebug debug f ⟨.arr (some lb) dims, is⟩ rhs (fill ⟨some lb, values dims⟩ v m) := by
  obtain ⟨m1, e1, g1, g2, g3, _⟩ := C98_exact H hc e hp debug f (some v) m
  obtain ⟨m2, e2, k1, k2⟩ := whole_spec H debug f (some v) m
  rw [e1]
  refine Eq.trans ?_ e2.symm
  congr 1
  refine mem_ext' (fun r hr => ?_) g2 k2
  obtain ⟨l, hl, hv⟩ := g1 r hr
  rw [hv, k1 r l hr hl]
  obtain ⟨n, hn⟩ := Nat.exists_eq_succ_of_ne_zero (Nat.one_le_iff_ne_zero.1 (g3 r hr))
  rw [hn, Function.iterate_succ_apply']
  rfl

/-- C98: without `fill` it is `ein_reduce` of the whole array if the tiles do not overlap, or if reducing the same values
once more changes nothing. -/
theorem C98_no_fill (H : TileInput dims is lb rhs) (hc : List.Forall₂ CutOk cs (values dims))
    (e : tileLoops cs (values dims) = some ts') (hp : ts.Perm ts') (debug : Bool) (f : α → α → α)
    (hf : List.Forall₂ NoOverlap cs (values dims) ∨
      ∀ (l : List α) x, l.foldl f (l.foldl f x) = l.foldl f x) (m : Mem α) :
    reduceTiles debug f none cs (some lb) dims is rhs ts m =
      einReduceDebug debug f ⟨.arr (some lb) dims, is⟩ rhs m := by
  obtain ⟨m1, e1, g1, g2, g3, g4⟩ := C98_exact H hc e hp debug f none m
  obtain ⟨m2, e2, k1, k2⟩ := whole_spec H debug f none m
  rw [e1]
  refine Eq.trans ?_ e2.symm
  congr 1
  refine mem_ext' (fun r hr => ?_) g2 k2
  obtain ⟨l, hl, hv⟩ := g1 r hr
  rw [hv, k1 r l hr hl]
  rcases hf with hno | hf
  · rw [g4 hno r hr]
    rfl
  · obtain ⟨n, hn⟩ := Nat.exists_eq_succ_of_ne_zero (Nat.one_le_iff_ne_zero.1 (g3 r hr))
    rw [hn]
    generalize m (lb + offsetOf (values dims) r) = x
    have hid : ∀ x, updated f none m rhs l (updated f none m rhs l x) = updated f none m rhs l x := by
      intro x
      have := hf (l.map fun i => valueAt m i rhs) x
      rw [List.foldl_map, List.foldl_map] at this
      exact this
    clear hn hv
    induction n generalizing x with
    | zero => rfl
    | succ n ih => rw [Function.iterate_succ_apply, ih, hid]

/-- C98: `ein<…>(C_tile) = …` (the assignment) for every tile is the assignment of the whole array. -/
theorem C98_assign (H : TileInput dims is lb rhs) (hc : List.Forall₂ CutOk cs (values dims))
    (e : tileLoops cs (values dims) = some ts') (hp : ts.Perm ts') (debug : Bool) (m : Mem α) :
    reduceTiles debug (fun _ y => y) none cs (some lb) dims is rhs ts m =
      einReduceDebug debug (fun _ y => y) ⟨.arr (some lb) dims, is⟩ rhs m := by
  refine C98_no_fill H hc e hp debug _ (Or.inr fun l x => ?_) m
  rcases List.eq_nil_or_concat l with rfl | ⟨l, y, rfl⟩
  · rfl
  · simp

/-- C98: so are reductions to a maximum (or minimum, or any other least upper bound). -/
theorem C98_max [SemilatticeSup α] (H : TileInput dims is lb rhs) (hc : List.Forall₂ CutOk cs (values dims))
    (e : tileLoops cs (values dims) = some ts') (hp : ts.Perm ts') (debug : Bool) (m : Mem α) :
    reduceTiles debug (· ⊔ ·) none cs (some lb) dims is rhs ts m =
      einReduceDebug debug (· ⊔ ·) ⟨.arr (some lb) dims, is⟩ rhs m := by
  refine C98_no_fill H hc e hp debug _ (Or.inr fun l x => ?_) m
  have hle : ∀ (l : List α) x, x ≤ l.foldl (· ⊔ ·) x := by
    intro l
    induction l with
    | nil => intro x; exact le_refl x
    | cons a l ih => intro x; exact le_trans le_sup_left (ih _)
  have hb : ∀ (l : List α) x, ∀ y ∈ l, y ≤ l.foldl (· ⊔ ·) x := by
    intro l
    induction l with
    | nil => simp
    | cons a l ih =>
      intro x y hy
      rcases List.mem_cons.1 hy with rfl | hy
      · exact le_trans le_sup_right (hle l _)
      · exact ih _ y hy
  have key : ∀ (l : List α) z, (∀ y ∈ l, y ≤ z) → l.foldl (· ⊔ ·) z = z := by
    intro l
    induction l with
    | nil => intro z _; rfl
    | cons a l ih =>
      intro z hz
      rw [List.foldl_cons, sup_eq_left.2 (hz a (by simp))]
      exact ih z fun y hy => hz y (by simp [hy])
  exact key l _ (hb l x)

/-- C98: the tiles are within the array, and the piece of a dim made by `split<N>` has exactly `N` indices, which the
type of the tile's dim says. -/
theorem C98_types (H : TileInput dims is lb rhs) (hc : List.Forall₂ CutOk cs (values dims))
    (e : tileLoops cs (values dims) = some ts') (hp : ts.Perm ts') (t : List Arg) (ht : t ∈ ts) :
    typedViewAssert dims (List.zipWith Cut.typed cs t) = true ∧
    (∀ d ∈ typedView dims (List.zipWith Cut.typed cs t), Fits d.ty d.val) ∧
    (∀ i, InBox (values (typedView dims (List.zipWith Cut.typed cs t))) i ↔
      InBox (values dims) i ∧ hasIndex t i = true) ∧
    ∀ (k : Nat) (N : Int), cs[k]? = some (.fixed N) →
      ((typedView dims (List.zipWith Cut.typed cs t))[k]?.map fun d => (d.ty.extent, d.val.extent)) = some (N, N) := by
  obtain ⟨h1, h2, _⟩ := tiles_ok H hc e hp
  have hty := h1 t ht
  have hpc := h2.piece t ht
  obtain ⟨g1, g2, g3⟩ := einTile_vals hty hpc H.fits
  refine ⟨g3, g2, fun i => ?_, ?_⟩
  · rw [g1, tiled_inBox_iff hpc, hasIndex_iff]
  · intro k N hk
    exact typedView_fixed hty (by simpa [values] using hpc.length_eq) k N hk
end

/-- C98: the tiled matrix multiplication of README.md:328-345, for any sizes and tile sizes and any layouts, with loops
in any order: afterwards `C` is the product of `A` and `B`, and nothing else has changed. -/
theorem C98_matrix_product [NonUnitalNonAssocSemiring α] (i j k : Nat) (hij : i ≠ j) (hik : i ≠ k)
    (hjk : j ≠ k) (c a b : Int) (c0 c1 a0 a1 b0 b1 : SDim)
    (hg : ∀ d ∈ [c0, c1, a0, a1, b0, b1], GoodDim d)
    (h0 : SameBounds a0 c0) (h1 : SameBounds b1 c1) (h2 : SameBounds b0 a1)
    (hs0 : c0.val.stride ≠ 0) (hs1 : c1.val.stride ≠ 0)
    (hr : GoodResult (einMat c c0 c1 i j)
      (.binary (· * ·) (.op (einMat a a0 a1 i k)) (.op (einMat b b0 b1 k j)) : EinExpr α))
    (rows cols : Cut) (hc0 : CutOk rows c0.val) (hc1 : CutOk cols c1.val) (ts ts' : List (List Arg))
    (e : tileLoops [rows, cols] [c0.val, c1.val] = some ts') (hp : ts.Perm ts') (debug : Bool) (m : Mem α) :
    ∃ m', reduceTiles debug (· + ·) (some 0) [rows, cols] (some c) [c0, c1] [i, j]
        (.binary (· * ·) (.op (einMat a a0 a1 i k)) (.op (einMat b b0 b1 k j))) ts m = some m' ∧
      (∀ x y, inDim c0 x → inDim c1 y → matAt m' c c0 c1 x y =
        ∑ z ∈ Finset.Ico a1.val.min (a1.val.min + a1.val.extent), matAt m a a0 a1 x z * matAt m b b0 b1 z y) ∧
      ∀ p, ¬ OpElement (einMat c c0 c1 i j : EinOp α) p → m' p = m p := by
  set rhs : EinExpr α := .binary (· * ·) (.op (einMat a a0 a1 i k)) (.op (einMat b b0 b1 k j)) with hrhs
  obtain ⟨B, Bi, Bj, Bk⟩ : ∃ B : Nat → Int × Int, B i = (c0.val.min, c0.val.extent) ∧
      B j = (c1.val.min, c1.val.extent) ∧ B k = (a1.val.min, a1.val.extent) :=
    ⟨fun t => if t = i then (c0.val.min, c0.val.extent) else
      if t = j then (c1.val.min, c1.val.extent) else (a1.val.min, a1.val.extent),
      if_pos rfl, by simp [Ne.symm hij], by simp [Ne.symm hik, Ne.symm hjk]⟩
  obtain ⟨hin, has, _⟩ := einInput_of (lhs := einMat c c0 c1 i j) (rhs := rhs) (B := B) (by
    intro o ho
    simp only [hrhs, leaves, List.cons_append, List.nil_append, List.mem_cons, List.not_mem_nil, or_false] at ho
    rcases ho with rfl | rfl | rfl
    · exact ⟨hasBounds_mat (by rw [Bi]; exact ⟨rfl, rfl⟩) (by rw [Bj]; exact ⟨rfl, rfl⟩),
        typed_mat (hg _ (by simp)) (hg _ (by simp))⟩
    · exact ⟨hasBounds_mat (by rw [Bi]; exact h0) (by rw [Bk]; exact ⟨rfl, rfl⟩),
        typed_mat (hg _ (by simp)) (hg _ (by simp))⟩
    · exact ⟨hasBounds_mat (by rw [Bk]; exact h2) (by rw [Bj]; exact h1),
        typed_mat (hg _ (by simp)) (hg _ (by simp))⟩) hr
  have H : TileInput [c0, c1] [i, j] c rhs := ⟨hin, by simp [hij], by simp [hs0, hs1], has⟩
  have hnn : NonNeg ([c0.val, c1.val] : Shape) := hin.nonNeg _ (List.mem_cons_self ..)
  rw [C98_fill H (cs := [rows, cols]) (.cons hc0 (.cons hc1 .nil)) e hp debug]
  obtain ⟨f1, f2⟩ := C19_fill ⟨some c, [c0.val, c1.val]⟩ c rfl hnn (0 : α) m
  set m1 := fill ⟨some c, [c0.val, c1.val]⟩ (0 : α) m
  obtain ⟨m', e', g1, g2⟩ := C41_matrix_product i j k hij hik hjk c a b c0 c1 a0 a1 b0 b1 hg h0 h1 h2 hr m1
  have hel : ∀ p, ¬ OpElement (einMat c c0 c1 i j : EinOp α) p → m1 p = m p := by
    intro p hp
    refine f2 p ?_
    rintro r hr rfl
    exact hp ⟨c, r, rfl, hr, rfl⟩
  have hbox : ∀ (d0 d1 : SDim) x y, inDim d0 x → inDim d1 y → InBox [d0.val, d1.val] [x, y] := by
    intro d0 d1 x y hx hy
    exact ⟨hx, hy, trivial⟩
  have hread : ∀ (base : Int) (d0 d1 : SDim) (u v : Nat), einMat base d0 d1 u v ∈ leaves rhs →
      ∀ x y, inDim d0 x → inDim d1 y → matAt m1 base d0 d1 x y = matAt m base d0 d1 x y := by
    intro base d0 d1 u v ho x y hx hy
    refine hel _ fun hp => hr.2 _ ho _ hp ⟨base, [x, y], rfl, hbox d0 d1 x y hx hy, ?_⟩
    simp [offsetOf]
    ring
  refine ⟨m', ?_, ?_, fun p hp => (g2 p hp).trans (hel p hp)⟩
  · unfold einReduceDebug
    have has' : einAssert (⟨.arr (some c) [c0, c1], [i, j]⟩ : EinOp α) rhs = true := has
    rw [has']
    simp only [requireAssert, Bool.not_true, Bool.and_false, Bool.false_eq_true, if_false, Option.bind_eq_bind,
      Option.bind_some]
    exact e'
  · intro x y hx hy
    rw [g1 x y hx hy]
    have hz : matAt m1 c c0 c1 x y = 0 := by
      have := f1 [x, y] (hbox c0 c1 x y hx hy)
      refine Eq.trans ?_ this
      unfold matAt
      congr 1
      simp [offsetOf]
      ring
    rw [hz, zero_add]
    refine Finset.sum_congr rfl fun z hz => ?_
    rw [Finset.mem_Ico] at hz
    have hax : inDim a0 x := by unfold inDim at *; rw [h0.1, h0.2]; exact hx
    have hby : inDim b1 y := by unfold inDim at *; rw [h1.1, h1.2]; exact hy
    have hbz : inDim b0 z := by unfold inDim at *; rw [h2.1, h2.2]; exact hz
    rw [hread a a0 a1 i k (by simp [hrhs, leaves]) x z hax hz, hread b b0 b1 k j (by simp [hrhs, leaves]) z y hbz hby]

private abbrev exDim (e s : Int) : SDim := ⟨⟨dynamic, dynamic, dynamic⟩, ⟨0, e, s⟩⟩

private theorem exDim_good {e s : Int} (h : 0 ≤ e) : GoodDim (exDim e s) := goodDim_any _ h

/-- The product of a 3x2 and a 2x3 matrix in overlapping 2x2 tiles, last tile first. -/
example (m : Mem Int) : ∃ m', reduceTiles true (· + ·) (some 0) [.fixed 2, .fixed 2] (some 100) [exDim 3 3, exDim 3 1]
      [0, 1] (.binary (· * ·) (.op (einMat 0 (exDim 3 2) (exDim 2 1) 0 2)) (.op (einMat 10 (exDim 2 3) (exDim 3 1) 2 1)))
      [[.ivl ⟨1, 2⟩, .ivl ⟨1, 2⟩], [.ivl ⟨0, 2⟩, .ivl ⟨1, 2⟩], [.ivl ⟨1, 2⟩, .ivl ⟨0, 2⟩], [.ivl ⟨0, 2⟩, .ivl ⟨0, 2⟩]]
      m = some m' ∧ m' 105 = m 2 * m 12 + m 3 * m 15 ∧ m' 99 = m 99 := by
  have e : (splitStatic 2 ⟨0, 3⟩).iterate = some [⟨0, 2⟩, ⟨1, 2⟩] := statIterate (by decide) (by decide)
  obtain ⟨m', h, h1, h2⟩ := C98_matrix_product 0 1 2 (by decide) (by decide) (by decide) 100 0 10 (exDim 3 3) (exDim 3 1)
    (exDim 3 2) (exDim 2 1) (exDim 2 3) (exDim 3 1)
    (by
      intro d hd
      simp only [List.mem_cons, List.not_mem_nil, or_false] at hd
      rcases hd with rfl | rfl | rfl | rfl | rfl | rfl <;> exact exDim_good (by decide))
    ⟨rfl, rfl⟩ ⟨rfl, rfl⟩ ⟨rfl, rfl⟩ (by decide) (by decide)
    (by
      constructor
      · intro i j hi hj h
        obtain ⟨x, y, rfl⟩ : ∃ x y, i = [x, y] := by
          match i, hi with
          | [x, y], _ => exact ⟨x, y, rfl⟩
        obtain ⟨x', y', rfl⟩ : ∃ x y, j = [x, y] := by
          match j, hj with
          | [x, y], _ => exact ⟨x, y, rfl⟩
        simp [einMat, einDims, InBox, offsetOf] at hi hj h
        simp
        omega
      · rintro o ho p ⟨b, i, hb, hi, rfl⟩ hop
        simp only [leaves, List.cons_append, List.nil_append, List.mem_cons, List.not_mem_nil, or_false] at ho
        simp only [Option.some.injEq] at hb
        subst hb
        rcases ho with rfl | rfl <;>
        · obtain ⟨b', i', hb', hi', h⟩ := hop
          simp only [Option.some.injEq] at hb'
          subst hb'
          match i, i', hi, hi' with
          | [x, y], [x', y'], hi, hi' =>
            simp [InBox, offsetOf] at hi hi' h
            omega)
    (.fixed 2) (.fixed 2) ⟨by decide, by decide⟩ ⟨by decide, by decide⟩ _
    [[.ivl ⟨0, 2⟩, .ivl ⟨0, 2⟩], [.ivl ⟨1, 2⟩, .ivl ⟨0, 2⟩], [.ivl ⟨0, 2⟩, .ivl ⟨1, 2⟩], [.ivl ⟨1, 2⟩, .ivl ⟨1, 2⟩]]
    (by simp [tileLoops, Cut.args, e]) (List.reverse_perm _) true m
  refine ⟨m', h, ?_, h2 99 ?_⟩
  · have := h1 1 2 (by simp [inDim]) (by simp [inDim])
    simpa [matAt, show Finset.Ico (0 : Int) 2 = {0, 1} from rfl] using this
  · rintro ⟨b, i, hb, hi, h⟩
    simp only [Option.some.injEq] at hb
    subst hb
    match i, hi with
    | [x, y], hi =>
      simp [InBox, offsetOf] at hi h
      omega

/-- C98: `+=` without `fill` is not the sum if tiles overlap: the middle element of three gets its value twice. -/
theorem C98_overlap_counterexample :
    ∃ (cs : List Cut) (dims : List SDim) (rhs : EinExpr Int) (ts : List (List Arg)) (m m1 m2 : Mem Int),
      TileInput dims [0] 0 rhs ∧ List.Forall₂ CutOk cs (values dims) ∧ tileLoops cs (values dims) = some ts ∧
      einReduceDebug true (· + ·) ⟨.arr (some 0) dims, [0]⟩ rhs m = some m1 ∧
      reduceTiles true (· + ·) none cs (some 0) dims [0] rhs ts m = some m2 ∧ m1 1 = 1 ∧ m2 1 = 2 := by
  have e : (splitStatic 2 ⟨0, 3⟩).iterate = some [⟨0, 2⟩, ⟨1, 2⟩] := statIterate (by decide) (by decide)
  have H : TileInput [exDim 3 1] [0] 0 (.op (einVec 3 (exDim 3 1) 0) : EinExpr Int) := by
    have hv : ∀ b, HasBounds (fun _ => (0, 3)) (einVec b (exDim 3 1) 0 : EinOp Int) := fun b =>
      hasBounds_vec ⟨rfl, rfl⟩
    obtain ⟨h1, h2, _⟩ := einInput_of (lhs := einVec 0 (exDim 3 1) 0) (rhs := (.op (einVec 3 (exDim 3 1) 0) : EinExpr Int))
      (B := fun _ => (0, 3)) (by
        intro o ho
        simp only [leaves, List.mem_cons, List.not_mem_nil, or_false] at ho
        rcases ho with rfl | rfl
        · exact ⟨hv 0, typed_vec (exDim_good (by decide))⟩
        · exact ⟨hv 3, typed_vec (exDim_good (by decide))⟩)
      (by
        constructor
        · intro i j hi hj h
          match i, j, hi, hj with
          | [x], [y], hi, hj =>
            simp [einVec, einDims, InBox, offsetOf] at hi hj h
            simp
            omega
        · rintro o ho p ⟨b, i, hb, hi, rfl⟩ hop
          simp only [leaves, List.mem_cons, List.not_mem_nil, or_false] at ho
          subst ho
          obtain ⟨b', i', hb', hi', h⟩ := hop
          simp at hb hb'
          subst hb hb'
          match i, i', hi, hi' with
          | [x], [y], hi, hi' =>
            simp [InBox, offsetOf] at hi hi' h
            omega)
    exact ⟨h1, by decide, by decide, h2⟩
  have hc : List.Forall₂ CutOk [Cut.fixed 2] (values [exDim 3 1]) := .cons ⟨by decide, by decide⟩ .nil
  have ht : tileLoops [Cut.fixed 2] (values [exDim 3 1]) = some [[.ivl ⟨0, 2⟩], [.ivl ⟨1, 2⟩]] := by
    simp [tileLoops, Cut.args, e, values]
  obtain ⟨k1, k2, _, _⟩ := tiles_ok H hc ht (List.Perm.refl _)
  obtain ⟨m1, e1, g1, _⟩ := whole_spec H true (· + ·) none (fun x => if x = 4 then 1 else 0)
  obtain ⟨m2, e2, g2, _⟩ := reduceTiles_spec (cs := [Cut.fixed 2]) H _ k1 k2.piece true (· + ·) none
    (fun x => if x = 4 then 1 else 0) (fun x => if x = 4 then 1 else 0) (fun _ _ => rfl)
  refine ⟨_, _, _, _, _, m1, m2, H, hc, ht, e1, e2, ?_, ?_⟩
  · exact (g1 [1] _ (by simp [values, InBox]) (contributes_exists H [1])).trans (by decide +kernel)
  · exact (g2 [1] _ (by simp [values, InBox]) (contributes_exists H [1])).trans (by decide +kernel)

end Nda
