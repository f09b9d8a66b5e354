import Verif.Lemmas.EinLevels
import Verif.Props.TileLevels
/-
C104: Einstein reductions on tiles of tiles (README.md:225-240 and 328-345 together).  `Verif/Model/EinLevels.lean` has the loops.
-/
namespace Nda
open Spec
variable {α : Type}

section
variable {lb : Int} {dims : List SDim} {is : List Nat} {rhs : EinExpr α} {levels : List (List Cut)}
  {order : List (List Arg) → List (List Arg)}

/-- The levels, one after the other. -/
private theorem levels_induction (ho : ∀ l, (order l).Perm l) (debug : Bool) (f : α → α → α) (init : Option α)
    (P : Cut → Int → Prop)
    (hstep : ∀ {dims : List SDim} {lb : Int} {cs : List Cut} {ts ts' : List (List Arg)} {rest : List (List Cut)},
      TileInput dims is lb rhs → List.Forall₂ CutOk cs (values dims) →
      Levels (AtEach P) (cs :: rest) (values dims) →
      tileLoops cs (values dims) = some ts' → ts.Perm ts' → ∀ m, reduceTiles debug f init cs (some lb) dims is rhs ts m =
        einReduceDebug debug f ⟨.arr (some lb) dims, is⟩ rhs (fillReduced init ⟨some lb, values dims⟩ m))
    (H : TileInput dims is lb rhs) (hl : Levels LevelsFit levels (values dims))
    (hl' : Levels (AtEach P) levels (values dims)) (m : Mem α) :
    reduceLevels debug f init order levels (some lb) dims is rhs m =
      einReduceDebug debug f ⟨.arr (some lb) dims, is⟩ rhs (fillReduced init ⟨some lb, values dims⟩ m) := by
  induction levels generalizing dims lb m with
  | nil => rfl
  | cons cs rest ih =>
    have hnn : NonNeg (values dims) := H.input.nonNeg _ (List.mem_cons_self ..)
    have hc : List.Forall₂ CutOk cs (values dims) := levels_step cutOk_extent hl
    obtain ⟨ts, e, hp, -⟩ := tileLoops_ok hc hnn
    rw [reduceLevels_step e, hstep H hc hl' e (ho ts)]
    intro t ht m
    have ht' : t ∈ ts := (ho ts).mem_iff.1 ht
    have hpt := hp t ht'
    have hty := tileLoops_typed hc hnn e t ht'
    obtain ⟨b', hb', -⟩ := tiled_address (a := ⟨some lb, values dims⟩) rfl hpt
    have hv := (einTile_vals hty hpt H.fits).1
    have e2 : (einTile cs (some lb) dims is t : EinOp α) = ⟨.arr (some b') (typedView dims (List.zipWith Cut.typed cs t)), is⟩ := by
      unfold einTile
      rw [hb']
    have e3 : ArrayRef.crop ⟨some lb, values dims⟩ t = ⟨some b', values (typedView dims (List.zipWith Cut.typed cs t))⟩ := by
      rw [hv, ← hb']
      rfl
    rw [e2, hb', e3]
    refine ih (tileInput_tile H hty hpt hb') ?_ ?_ m
    · rw [hv]; exact levels_inner hnn hc hl e ht'
    · rw [hv]; exact levels_inner hnn hc hl' e ht'

/-- C104: `fill` and `ein_reduce` of every innermost tile is `fill` and `ein_reduce` of the whole array, exactly and for any
operation, any number of levels, and any order of the tiles of a level, even if tiles overlap. -/
theorem C104_fill (ho : ∀ l, (order l).Perm l) (H : TileInput dims is lb rhs) (hl : Levels LevelsFit levels (values dims))
    (debug : Bool) (f : α → α → α) (v : α) (m : Mem α) :
    reduceLevels debug f (some v) order levels (some lb) dims is rhs m =
      einReduceDebug debug f ⟨.arr (some lb) dims, is⟩ rhs (fill ⟨some lb, values dims⟩ v m) :=
  levels_induction ho debug f (some v) _ (fun H hc _ e hp m => C98_fill H hc e hp debug f v m) H hl hl m

/-- C104: without `fill` it is `ein_reduce` of the whole array if the tiles of no level overlap, or if reducing the same
values once more changes nothing. -/
theorem C104_no_fill (ho : ∀ l, (order l).Perm l) (H : TileInput dims is lb rhs) (hl : Levels LevelsFit levels (values dims))
    (debug : Bool) (f : α → α → α)
    (hf : Levels LevelsApart levels (values dims) ∨ ∀ (l : List α) x, l.foldl f (l.foldl f x) = l.foldl f x) (m : Mem α) :
    reduceLevels debug f none order levels (some lb) dims is rhs m =
      einReduceDebug debug f ⟨.arr (some lb) dims, is⟩ rhs m := by
  rcases hf with ha | hf
  · exact levels_induction ho debug f none _ (fun H hc hl' e hp m =>
      C98_no_fill H hc e hp debug f (.inl (levels_step noOverlap_extent hl')) m) H hl ha m
  · exact levels_induction ho debug f none _ (fun H hc _ e hp m => C98_no_fill H hc e hp debug f (.inr hf) m) H hl hl m

/-- C104: run-time factors need no condition at all, and without `fill` either: the reduction over tiles of tiles of tiles …
is the reduction of the whole array. -/
theorem C104_runtime (ho : ∀ l, (order l).Perm l) (H : TileInput dims is lb rhs)
    (hlen : ∀ cs ∈ levels, cs.length = dims.length) (hc : ∀ cs ∈ levels, ∀ c ∈ cs, c = .keep ∨ ∃ n, c = .dyn n ∧ 0 < n)
    (debug : Bool) (f : α → α → α) (init : Option α) (m : Mem α) :
    reduceLevels debug f init order levels (some lb) dims is rhs m =
      einReduceDebug debug f ⟨.arr (some lb) dims, is⟩ rhs (fillReduced init ⟨some lb, values dims⟩ m) := by
  have hk : ∀ (k : Nat) (e : Int), LevelsFit (levels.filterMap (·[k]?)) e ∧ LevelsApart (levels.filterMap (·[k]?)) e := by
    intro k e
    refine C102_runtime _ (fun c hmem => ?_) e
    obtain ⟨cs, hcs, hck⟩ := List.mem_filterMap.1 hmem
    exact hc cs hcs c (List.mem_of_getElem? hck)
  have hl : ∀ cs ∈ levels, cs.length = (values dims).length := fun cs h => by simpa [values] using hlen cs h
  cases init with
  | some v => exact C104_fill ho H ⟨hl, fun k d _ => (hk k _).1⟩ debug f v m
  | none => exact C104_no_fill ho H ⟨hl, fun k d _ => (hk k _).1⟩ debug f (.inl ⟨hl, fun k d _ => (hk k _).2⟩) m

end

/-- C104: the matrix multiplication of README.md:328-345 on tiles of tiles, for any sizes, layouts and cuts that the levels allow:
afterwards `C` is the product of `A` and `B`, and nothing else has changed. -/
theorem C104_matrix_product [NonUnitalNonAssocSemiring α] (i j k : Nat) (hij : i ≠ j) (hik : i ≠ k)
    (hjk : j ≠ k) (c a b : Int) (c0 c1 a0 a1 b0 b1 : SDim)
    (hg : ∀ d ∈ [c0, c1, a0, a1, b0, b1], GoodDim d)
    (h0 : SameBounds a0 c0) (h1 : SameBounds b1 c1) (h2 : SameBounds b0 a1)
    (hs0 : c0.val.stride ≠ 0) (hs1 : c1.val.stride ≠ 0)
    (hr : GoodResult (einMat c c0 c1 i j)
      (.binary (· * ·) (.op (einMat a a0 a1 i k)) (.op (einMat b b0 b1 k j)) : EinExpr α))
    {order : List (List Arg) → List (List Arg)} (ho : ∀ l, (order l).Perm l) (levels : List (List Cut))
    (hl : Levels LevelsFit levels [c0.val, c1.val]) (debug : Bool) (m : Mem α) :
    ∃ m', reduceLevels debug (· + ·) (some 0) order levels (some c) [c0, c1] [i, j]
        (.binary (· * ·) (.op (einMat a a0 a1 i k)) (.op (einMat b b0 b1 k j))) m = some m' ∧
      (∀ x y, inDim c0 x → inDim c1 y → matAt m' c c0 c1 x y =
        ∑ z ∈ Finset.Ico a1.val.min (a1.val.min + a1.val.extent), matAt m a a0 a1 x z * matAt m b b0 b1 z y) ∧
      ∀ p, ¬ OpElement (einMat c c0 c1 i j : EinOp α) p → m' p = m p := by
  obtain ⟨B, Bi, Bj, Bk⟩ : ∃ B : Nat → Int × Int, B i = (c0.val.min, c0.val.extent) ∧
      B j = (c1.val.min, c1.val.extent) ∧ B k = (a1.val.min, a1.val.extent) :=
    ⟨fun t => if t = i then (c0.val.min, c0.val.extent) else
      if t = j then (c1.val.min, c1.val.extent) else (a1.val.min, a1.val.extent),
      if_pos rfl, by simp [Ne.symm hij], by simp [Ne.symm hik, Ne.symm hjk]⟩
  obtain ⟨hin, has, _⟩ := einInput_of (lhs := einMat c c0 c1 i j) (rhs := .binary (· * ·) (.op (einMat a a0 a1 i k))
      (.op (einMat b b0 b1 k j))) (B := B) (by
    intro o ho
    simp only [leaves, List.cons_append, List.nil_append, List.mem_cons, List.not_mem_nil, or_false] at ho
    rcases ho with rfl | rfl | rfl
    · exact ⟨hasBounds_mat (by rw [Bi]; exact ⟨rfl, rfl⟩) (by rw [Bj]; exact ⟨rfl, rfl⟩),
        typed_mat (hg _ (by simp)) (hg _ (by simp))⟩
    · exact ⟨hasBounds_mat (by rw [Bi]; exact h0) (by rw [Bk]; exact ⟨rfl, rfl⟩),
        typed_mat (hg _ (by simp)) (hg _ (by simp))⟩
    · exact ⟨hasBounds_mat (by rw [Bk]; exact h2) (by rw [Bj]; exact h1),
        typed_mat (hg _ (by simp)) (hg _ (by simp))⟩) hr
  have H : TileInput [c0, c1] [i, j] c (.binary (· * ·) (.op (einMat a a0 a1 i k)) (.op (einMat b b0 b1 k j)) : EinExpr α) :=
    ⟨hin, by simp [hij], by simp [hs0, hs1], has⟩
  have hk : List.Forall₂ CutOk [Cut.keep, Cut.keep] (values [c0, c1]) := .cons trivial (.cons trivial .nil)
  obtain ⟨ts, e, -⟩ := tileLoops_ok hk (hin.nonNeg _ (List.mem_cons_self ..))
  rw [C104_fill ho H hl debug, ← C98_fill H hk e (List.Perm.refl _) debug]
  exact C98_matrix_product i j k hij hik hjk c a b c0 c1 a0 a1 b0 b1 hg h0 h1 h2 hs0 hs1 hr .keep .keep trivial trivial ts ts e
    (List.Perm.refl _) debug m

private abbrev lvDim (e s : Int) : SDim := ⟨⟨dynamic, dynamic, dynamic⟩, ⟨0, e, s⟩⟩

-- The product of a 5x2 and a 2x3 matrix in tiles of 4x2 (the last row and the last column remain), the rows of these in
-- tiles of one row, the columns in tiles of one column; the tiles of each level from the last to the first.
example (m : Mem Int) : ∃ m', reduceLevels true (· + ·) (some 0) List.reverse [[.dyn 4, .dyn 2], [.fixed 1, .fixed 1]] (some 100)
      [lvDim 5 3, lvDim 3 1] [0, 1]
      (.binary (· * ·) (.op (einMat 0 (lvDim 5 2) (lvDim 2 1) 0 2)) (.op (einMat 10 (lvDim 2 3) (lvDim 3 1) 2 1))) m =
        some m' ∧ m' 114 = m 8 * m 12 + m 9 * m 15 ∧ m' 99 = m 99 := by
  obtain ⟨m', h, h1, h2⟩ := C104_matrix_product 0 1 2 (by decide) (by decide) (by decide) 100 0 10 (lvDim 5 3) (lvDim 3 1)
    (lvDim 5 2) (lvDim 2 1) (lvDim 2 3) (lvDim 3 1)
    (by
      intro d hd
      simp only [List.mem_cons, List.not_mem_nil, or_false] at hd
      rcases hd with rfl | rfl | rfl | rfl | rfl | rfl <;> exact goodDim_any _ (by decide))
    ⟨rfl, rfl⟩ ⟨rfl, rfl⟩ ⟨rfl, rfl⟩ (by decide) (by decide)
    (by
      constructor
      · intro i j hi hj h
        match i, j, hi, hj with
        | [x, y], [x', y'], hi, hj =>
          simp [einMat, einDims, InBox, offsetOf] at hi hj h
          simp
          omega
      · rintro o ho p ⟨b, i, hb, hi, rfl⟩ hop
        simp only [leaves, List.cons_append, List.nil_append, List.mem_cons, List.not_mem_nil, or_false] at ho
        simp only [Option.some.injEq] at hb
        subst hb
        rcases ho with rfl | rfl <;>
        · obtain ⟨b', i', hb', hi', h⟩ := hop
          simp only [Option.some.injEq] at hb'
          subst hb'
          match i, i', hi, hi' with
          | [x, y], [x', y'], hi, hi' =>
            simp [InBox, offsetOf] at hi hi' h
            omega)
    (order := List.reverse) List.reverse_perm [[.dyn 4, .dyn 2], [.fixed 1, .fixed 1]]
    ⟨by simp, by
      intro k d hd
      match k, hd with
      | 0, hd =>
        cases hd
        refine ⟨by norm_num [CutOk], ?_⟩
        rintro e' (⟨rfl, -⟩ | ⟨rfl, -⟩) <;> exact ⟨⟨by norm_num, by norm_num⟩, fun _ _ => trivial⟩
      | 1, hd =>
        cases hd
        refine ⟨by norm_num [CutOk], ?_⟩
        rintro e' (⟨rfl, -⟩ | ⟨rfl, -⟩) <;> exact ⟨⟨by norm_num, by norm_num⟩, fun _ _ => trivial⟩
      | k + 2, hd => simp at hd⟩ true m
  refine ⟨m', h, ?_, h2 99 ?_⟩
  · have := h1 4 2 (by simp [inDim]) (by simp [inDim])
    simpa [matAt, show Finset.Ico (0 : Int) 2 = {0, 1} from rfl] using this
  · rintro ⟨b, i, hb, hi, h⟩
    simp only [Option.some.injEq] at hb
    subst hb
    match i, hi with
    | [x, y], hi =>
      simp [InBox, offsetOf] at hi h
      omega

/-- C104: tiles of 4 with tiles of `split<3>` in them fail in the remainder of an extent of 10: whatever the reduction and the
memory, the loops do not end. -/
theorem C104_remainder_counterexample (f : α → α → α) (init : Option α) (rhs : EinExpr α) (m : Mem α) :
    reduceLevels false f init id [[.dyn 4], [.fixed 3]] (some 0) [lvDim 10 1] [0] rhs m = none := by
  have e : tileLoops [Cut.dyn 4] (values [lvDim 10 1]) = some [[.ivl ⟨0, 4⟩], [.ivl ⟨4, 4⟩], [.ivl ⟨8, 2⟩]] := by
    have : (splitDynamic ⟨0, 10⟩ 4).iterate = some [⟨0, 4⟩, ⟨4, 4⟩, ⟨8, 2⟩] := dynIterate (by decide) (by decide)
    simp [tileLoops, Cut.args, this, values]
  have hlast : ∀ m, reduceLevels false f init id [[.fixed 3]] (ArrayRef.crop ⟨some 0, values [lvDim 10 1]⟩ [.ivl ⟨8, 2⟩]).base
      (typedView [lvDim 10 1] (List.zipWith Cut.typed [.dyn 4] [.ivl ⟨8, 2⟩])) [0] rhs m = none := by
    intro m
    have e3 : values (typedView [lvDim 10 1] (List.zipWith Cut.typed [.dyn 4] [.ivl ⟨8, 2⟩])) = [⟨8, 2, 1⟩] := rfl
    have : (splitStatic 3 ⟨8, 2⟩).iterate = none := C25_small_diverges _ 3 (by decide) (by decide)
    rw [reduceLevels, e3]
    simp [tileLoops, Cut.args, this]
  rw [reduceLevels, e]
  simp only [Option.bind_eq_bind, Option.bind_some, id, List.foldlM_cons, requireAssert, Bool.false_and, Bool.false_eq_true,
    if_false, hlast, Option.bind_none]
  simp

end Nda
