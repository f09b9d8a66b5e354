import Verif.Lemmas.Convolution
import Verif.Props.LinearAlgebra
/-
C54: the versions of the convolution in examples/linear_algebra/conv2d_relu.cpp.
-/
namespace Nda
open Spec
variable {F : Type} (o : ScalarOps F) (input filter bias output : ArrayRef) (bi bf bb bo : Int) (m : Mem F)

/-- C54: `conv2d_naive`. -/
theorem C54_naive (h : Convolvable input filter bias output bi bf bb bo) :
    ∃ m', convNaive o input filter bias output m = some m' ∧
      IsLayer o (fun v => if o.lt v o.zero then o.zero else v) input filter bias output bi bf bb bo m m' := by
  classical
  refine convOuter h o _ m (fun n y m => forRange (output.axis 1) (fun m x =>
    forRange (output.axis 0) (fun m co => do
      let m ← copyAt (output.element [co, x, y, n]) (bias.element [co]) m
      let m ← forFilter filter (fun ci dy dx =>
        mulAddAt o (output.element [co, x, y, n]) (filter.element [co, dx, dy, ci])
          (input.element [ci, x + dx, y + dy, n])) m
      updateAt (output.element [co, x, y, n]) (fun v => stdMax o v o.zero) m) m) m) ?_
  intro V W hW n y m1 hn hy hm1
  have hbox : ∀ {x co}, InInterval (output.axis 1) x → InInterval (output.axis 0) co →
      InBox output.shape [co, x, y, n] :=
    fun hx hco => (box4 h.outputRank.1 _ _ _ _).2 ⟨hco, hx, hy, hn⟩
  obtain ⟨m', e, -, h'⟩ := run_rect (fun x co => addressOf output bo [co, x, y, n])
    (axis_nonneg h.outputRank.2 1) (axis_nonneg h.outputRank.2 0)
    (fun m x co => do
      let m ← copyAt (output.element [co, x, y, n]) (bias.element [co]) m
      let m ← forFilter filter (fun ci dy dx =>
        mulAddAt o (output.element [co, x, y, n]) (filter.element [co, dx, dy, ci])
          (input.element [ci, x + dx, y + dy, n])) m
      updateAt (output.element [co, x, y, n]) (fun v => stdMax o v o.zero) m)
    (fun p _ => stdMax o (convValue o filter V W p) o.zero) (ConvOperands input filter bias bi bf bb) m
    (by
      intro x co x' co' h1 h2 h3 h4 e
      have := h.injective _ _ (hbox h1 h2) (hbox h3 h4) e
      simp only [List.cons.injEq, and_true] at this
      exact ⟨this.2, this.1⟩)
    (fun x co m2 hx hco hm2 => by
      have hb := hbox hx hco
      have hbb := h.biasRead _ _ _ _ hb
      have hno := not_convOperand h hb
      rw [element_eq h.outputBase hb, element_eq h.biasBase hbb]
      set q := addressOf output bo [co, x, y, n] with hq
      obtain ⟨m3, e3, -, h3⟩ := forFilter_spec h.filterRank.2 (fun p => p = q)
        (ConvOperands input filter bias bi bf bb) m
        (fun ci dy dx => mulAddAt o (some q) (filter.element [co, dx, dy, ci])
          (input.element [ci, x + dx, y + dy, n])) (fun ci dy dx p s => o.add s (W ci dy dx p))
        (fun ci dy dx m3 hci hdy hdx hm3 => by
          refine ⟨_, convMulAdd h hW hm3 hb hci hdy hdx, fun p hp => ?_, fun p => ?_⟩
          · unfold Mem.set
            rw [if_neg (by rintro rfl; exact hno hp), hm3 p hp]
          · unfold Mem.set
            by_cases hp : p = q
            · rw [if_pos hp, if_pos hp, hp]
            · rw [if_neg hp, if_neg hp])
        (by rintro p rfl; exact hno) (m2.set q (m2 (addressOf bias bb [co]))) (fun p hp => by
          unfold Mem.set
          rw [if_neg (by rintro rfl; exact hno hp), hm2 p hp])
      simp only [copyAt, Option.bind_eq_bind, Option.bind_some, Option.pure_def]
      rw [e3, Option.bind_some]
      simp only [updateAt, Option.bind_eq_bind, Option.bind_some, Option.pure_def]
      congr 1
      funext p
      unfold Mem.set
      by_cases hp : p = q
      · rw [if_pos hp, if_pos hp, h3 q, if_pos rfl]
        unfold Mem.set
        rw [if_pos rfl, hm2 _ ⟨_, Or.inr (Or.inr ⟨hbb, rfl⟩)⟩, ← hW.bias _ _ _ _ hb]
        rfl
      · rw [if_neg hp, if_neg hp, h3 p, if_neg hp]
        unfold Mem.set
        rw [if_neg hp])
    (fun x co hx hco => not_convOperand h (hbox hx hco)) m1 hm1
  exact ⟨m', e, h'⟩

/-- C54: `conv2d_tiled`. -/
theorem C54_tiled (debug : Bool) (tileX tileCo : Int) (h : Convolvable input filter bias output bi bf bb bo)
    (hX : 0 < tileX) (hCo : 0 < tileCo) (hsX : SplittableAxis debug tileX output 1)
    (hsCo : SplittableAxis debug tileCo output 0) :
    ∃ m', convTiled o debug tileX tileCo input filter bias output m = some m' ∧
      IsLayer o (fun v => if o.lt o.zero v then v else o.zero) input filter bias output bi bf bb bo m m' := by
  classical
  refine convOuter h o _ m (fun n y m => do
      requireAssert debug (splitStaticAssert tileX (output.axis 1))
      let xs ← (splitStatic tileX (output.axis 1)).iterate
      xs.foldlM (fun m xo => do
        requireAssert debug (splitStaticAssert tileCo (output.axis 0))
        let cos ← (splitStatic tileCo (output.axis 0)).iterate
        cos.foldlM (fun m coo => convTile o input filter bias output n y xo coo m) m) m) ?_
  intro V W hW n y m1 hn hy hm1
  obtain ⟨ai, li, ei, hi1, hi2⟩ := splittable_pieces (d := ⟨⟨dynamic, dynamic, dynamic⟩, output.shape.getD 1 ⟨0, 0, 0⟩⟩)
    hX hsX
  obtain ⟨aj, lj, ej, hj1, hj2⟩ := splittable_pieces (d := ⟨⟨dynamic, dynamic, dynamic⟩, output.shape.getD 0 ⟨0, 0, 0⟩⟩)
    hCo hsCo
  have hrect : ∀ xo ∈ li, ∀ coo ∈ lj, ∀ p, Rect (fun x co => addressOf output bo [co, x, y, n]) xo coo p →
      Rect (fun x co => addressOf output bo [co, x, y, n]) (output.axis 1) (output.axis 0) p := by
    rintro xo hxo coo hcoo p ⟨x, co, hx, hco, rfl⟩
    exact ⟨x, co, (hi2 x).2 ⟨xo, hxo, hx⟩, (hj2 co).2 ⟨coo, hcoo, hco⟩, rfl⟩
  have hop : ∀ p, Rect (fun x co => addressOf output bo [co, x, y, n]) (output.axis 1) (output.axis 0) p →
      ¬ ConvOperands input filter bias bi bf bb p := by
    rintro p ⟨x, co, hx, hco, rfl⟩
    exact not_convOperand h ((box4 h.outputRank.1 _ _ _ _).2 ⟨hco, hx, hy, hn⟩)
  obtain ⟨m', e, -, h'⟩ := run_blocks
    (fun m xo => lj.foldlM (fun m coo => convTile o input filter bias output n y xo coo m) m)
    (fun xo p => ∃ coo ∈ lj, Rect (fun x co => addressOf output bo [co, x, y, n]) xo coo p)
    (fun _ p _ => stdMax o o.zero (convValue o filter V W p)) (ConvOperands input filter bias bi bf bb)
    (fun _ => False) m li
    (fun xo hxo m2 hm2 => by
      obtain ⟨m3, e3, -, h3⟩ := run_blocks (fun m coo => convTile o input filter bias output n y xo coo m)
        (fun coo p => Rect (fun x co => addressOf output bo [co, x, y, n]) xo coo p)
        (fun _ p _ => stdMax o o.zero (convValue o filter V W p)) (ConvOperands input filter bias bi bf bb)
        (fun _ => False) m lj
        (fun coo hcoo m3 hm3 => by
          obtain ⟨m4, e4, h4⟩ := convTile_spec h hW hn hy (by rw [hi1 xo hxo]; exact hX)
            (by rw [hj1 coo hcoo]; omega) (fun x hx => (hi2 x).2 ⟨xo, hxo, hx⟩)
            (fun co hco => (hj2 co).2 ⟨coo, hcoo, hco⟩) m3 hm3
          exact ⟨m4, e4, fun p _ => h4 p⟩)
        (fun coo hcoo p hp => ⟨fun hR => hop p (hrect xo hxo coo hcoo p hR) hp, not_false⟩) m2 hm2
      refine ⟨m3, e3, fun p hp => ?_⟩
      rw [h3 p hp]
      exact @foldl_ite_const _ _ (fun coo => Rect (fun x co => addressOf output bo [co, x, y, n]) xo coo p)
        (fun _ => Classical.propDecidable _) _ _ (Classical.propDecidable _) _)
    (fun xo hxo p hp => ⟨by
      rintro ⟨coo, hcoo, hR⟩
      exact hop p (hrect xo hxo coo hcoo p hR) hp, not_false⟩) m1 hm1
  refine ⟨m', ?_, fun p => ?_⟩
  · have ai : requireAssert debug (splitStaticAssert tileX (output.axis 1)) = some () := ai
    have ei : (splitStatic tileX (output.axis 1)).iterate = some li := ei
    have aj : requireAssert debug (splitStaticAssert tileCo (output.axis 0)) = some () := aj
    have ej : (splitStatic tileCo (output.axis 0)).iterate = some lj := ej
    simp only [ai, ei, aj, ej]
    exact e
  · rw [h' p not_false]
    by_cases hE : Rect (fun x co => addressOf output bo [co, x, y, n]) (output.axis 1) (output.axis 0) p
    · rw [if_pos hE]
      refine @foldl_ite_some _ _ (fun xo => ∃ coo ∈ lj, Rect (fun x co => addressOf output bo [co, x, y, n]) xo coo p)
        (fun _ => Classical.propDecidable _) _ _ _ ?_
      obtain ⟨x, co, hx, hco, rfl⟩ := hE
      obtain ⟨xo, hxo, hx⟩ := (hi2 x).1 hx
      obtain ⟨coo, hcoo, hco⟩ := (hj2 co).1 hco
      exact ⟨xo, hxo, coo, hcoo, x, co, hx, hco, rfl⟩
    · rw [if_neg hE]
      exact foldl_ite_none (P := fun xo => ∃ coo ∈ lj, Rect (fun x co => addressOf output bo [co, x, y, n]) xo coo p)
        (f := fun _ _ => stdMax o o.zero (convValue o filter V W p))
        fun xo hxo ⟨coo, hcoo, hR⟩ => hE (hrect xo hxo coo hcoo p hR)

/-- C54: the two versions give the same memory if every value is less than, greater than or equal to zero. -/
theorem C54_agree (debug : Bool) (tileX tileCo : Int) (h : Convolvable input filter bias output bi bf bb bo)
    (hX : 0 < tileX) (hCo : 0 < tileCo) (hsX : SplittableAxis debug tileX output 1)
    (hsCo : SplittableAxis debug tileCo output 0)
    (hasymm : ∀ v, o.lt v o.zero = true → o.lt o.zero v = false)
    (htotal : ∀ v, o.lt v o.zero = false → o.lt o.zero v = false → v = o.zero) :
    ∃ m', convNaive o input filter bias output m = some m' ∧
      convTiled o debug tileX tileCo input filter bias output m = some m' := by
  obtain ⟨m1, e1, h1, h1'⟩ := C54_naive o input filter bias output bi bf bb bo m h
  obtain ⟨m2, e2, h2, h2'⟩ := C54_tiled o input filter bias output bi bf bb bo m debug tileX tileCo h hX hCo hsX hsCo
  refine ⟨m1, e1, e2.trans (congrArg some (funext fun p => ?_))⟩
  by_cases hp : ∃ i, InBox output.shape i ∧ p = addressOf output bo i
  · obtain ⟨i, hi, rfl⟩ := hp
    obtain ⟨co, x, y, n, rfl⟩ := box4_of h.outputRank.1 hi
    rw [h1 co x y n hi, h2 co x y n hi]
    generalize convolution o input filter bias bi bf bb m co x y n = v
    cases ha : o.lt v o.zero with
    | true => simp [ha, hasymm v ha]
    | false =>
      cases hb : o.lt o.zero v with
      | true => simp [ha, hb]
      | false => simp [htotal v ha hb]
  · have hp : ∀ i, InBox output.shape i → p ≠ addressOf output bo i := fun i hi e => hp ⟨i, hi, e⟩
    rw [h1' p hp, h2' p hp]

/-- C54, negative part: with a row of fewer output elements than a tile has, but at least one, `conv2d_tiled` fails
an assertion or does not end. -/
theorem C54_small_counterexample (debug : Bool) (tileX tileCo : Int) (hn : 0 < (indicesOf output 3).extent)
    (hy : 0 < (indicesOf output 2).extent) (h0 : 0 < (indicesOf output 1).extent)
    (h1 : (indicesOf output 1).extent < tileX) :
    convTiled o debug tileX tileCo input filter bias output m = none := by
  have hloop : ∀ {v : Interval} {body : Mem F → Int → Option (Mem F)}, 0 < v.extent → (∀ m i, body m i = none) →
      ∀ m, forRange v body m = none := by
    intro v body hv hb m
    rw [forRange_eq hv.le, ints_succ hv, List.foldlM_cons, hb]
    rfl
  refine hloop hn (fun m n => hloop hy (fun m y => ?_) m) m
  have e : (splitStatic tileX (output.axis 1)).iterate = none := C25_small_diverges (output.axis 1) tileX h0 h1
  rw [e]
  cases requireAssert debug (splitStaticAssert tileX (output.axis 1)) <;> rfl

/-! ### Examples -/

/-- Integers with a value that is not a number. -/
def nanOps : ScalarOps (Option Int) where
  zero := some 0
  add a b := do pure ((← a) + (← b))
  mul a b := do pure ((← a) * (← b))
  lt | some a, some b => decide (a < b)
     | _, _ => false

/-- One element per dim. -/
def point (rank : Nat) (b : Int) : ArrayRef := ⟨some b, List.replicate rank ⟨0, 1, 1⟩⟩

theorem point_convolvable : Convolvable (point 4 0) (point 4 1) (point 1 2) (point 4 3) 0 1 2 3 := by
  have hz : ∀ {k : Nat} {i : List Int}, InBox (List.replicate k ⟨0, 1, 1⟩) i → i = List.replicate k 0 := by
    intro k
    induction k with
    | zero => intro i hi; cases i with
      | nil => rfl
      | cons _ _ => exact absurd hi id
    | succ k ih => intro i hi; cases i with
      | nil => exact absurd hi id
      | cons x i =>
        have h1 := ih hi.2
        have h2 : 0 ≤ x ∧ x < 0 + 1 := hi.1
        have h2 : x = 0 := by omega
        rw [h1, h2]
        rfl
  have hnn : ∀ k, NonNeg (List.replicate k ⟨0, 1, 1⟩) := by
    intro k d hd
    rw [List.eq_of_mem_replicate hd]
    decide
  refine ⟨rfl, rfl, rfl, rfl, ⟨rfl, hnn 4⟩, ⟨rfl, hnn 4⟩, fun co x y n hi => ⟨hi.1, trivial⟩, ?_, ?_, ?_⟩
  · intro co x y n hi ci dy dx hci hdy hdx
    have hci : 0 ≤ ci ∧ ci < 0 + 1 := hci
    have hdy : 0 ≤ dy ∧ dy < 0 + 1 := hdy
    have hdx : 0 ≤ dx ∧ dx < 0 + 1 := hdx
    obtain ⟨h1, h2, h3, h4, -⟩ := hi
    dsimp only at h1 h2 h3 h4
    refine ⟨⟨?_, ?_, ?_, ?_, trivial⟩, ⟨?_, ?_, ?_, ?_, trivial⟩⟩ <;> dsimp only <;> omega
  · intro i j hi hj _
    exact (hz hi).trans (hz hj).symm
  · intro i hi j
    have := hz hi
    subst this
    refine ⟨fun hj => ?_, fun hj => ?_, fun hj => ?_⟩ <;> have := hz hj <;> subst this <;> decide

/-- C54, negative part: the two versions differ for a value that is not a number: `conv2d_naive` keeps it,
`conv2d_tiled` turns it into 0. -/
theorem C54_nan_counterexample (debug : Bool) :
    ∃ m1 m2 : Mem (Option Int),
      convNaive nanOps (point 4 0) (point 4 1) (point 1 2) (point 4 3) (fun _ => none) = some m1 ∧
      convTiled nanOps debug 1 1 (point 4 0) (point 4 1) (point 1 2) (point 4 3) (fun _ => none) = some m2 ∧
      m1 3 = none ∧ m2 3 = some 0 := by
  have hb : InBox (point 4 3).shape [0, 0, 0, 0] := by
    refine ⟨?_, ?_, ?_, ?_, trivial⟩ <;> decide
  obtain ⟨m1, e1, h1, -⟩ := C54_naive nanOps _ _ _ _ _ _ _ _ (fun _ => none) point_convolvable
  obtain ⟨m2, e2, h2, -⟩ := C54_tiled nanOps _ _ _ _ _ _ _ _ (fun _ => none) debug 1 1 point_convolvable
    (by decide) (by decide) (Or.inl (by decide)) (Or.inl (by decide))
  exact ⟨m1, m2, e1, e2, (h1 0 0 0 0 hb).trans (by decide), (h2 0 0 0 0 hb).trans (by decide)⟩

/-- One channel, four columns, one row. -/
def exampleInput : ArrayRef := ⟨some 0, [⟨0, 1, 1⟩, ⟨0, 4, 1⟩, ⟨0, 1, 4⟩, ⟨0, 1, 4⟩]⟩
/-- Two columns, one row. -/
def exampleFilter : ArrayRef := ⟨some 10, [⟨0, 1, 1⟩, ⟨0, 2, 1⟩, ⟨0, 1, 2⟩, ⟨0, 1, 2⟩]⟩
def exampleBias : ArrayRef := ⟨some 20, [⟨0, 1, 1⟩]⟩
/-- Three columns, one row. -/
def exampleOutput : ArrayRef := ⟨some 30, [⟨0, 1, 1⟩, ⟨0, 3, 1⟩, ⟨0, 1, 3⟩, ⟨0, 1, 3⟩]⟩

theorem example_convolvable : Convolvable exampleInput exampleFilter exampleBias exampleOutput 0 10 20 30 := by
  have four : ∀ {e1 s2 : Int} {i : List Int}, InBox [⟨0, 1, 1⟩, ⟨0, e1, 1⟩, ⟨0, 1, s2⟩, ⟨0, 1, s2⟩] i →
      ∃ x, i = [0, x, 0, 0] ∧ 0 ≤ x ∧ x < e1 := by
    intro e1 s2 i hi
    match i, hi with
    | [a, x, c, d], hi =>
      obtain ⟨h1, h2, h3, h4, -⟩ := hi
      dsimp only at h1 h2 h3 h4
      refine ⟨x, ?_, by omega, by omega⟩
      rw [show a = 0 by omega, show c = 0 by omega, show d = 0 by omega]
  have addr : ∀ {bs : Option Int} {b e1 s2 x : Int}, addressOf ⟨bs, [⟨0, 1, 1⟩, ⟨0, e1, 1⟩, ⟨0, 1, s2⟩, ⟨0, 1, s2⟩]⟩ b [0, x, 0, 0] = b + x := by
    intros
    simp [addressOf, offsetOf]
  refine ⟨rfl, rfl, rfl, rfl, ⟨rfl, ?_⟩, ⟨rfl, ?_⟩, fun co x y n hi => ⟨hi.1, trivial⟩, ?_, ?_, ?_⟩
  · intro d hd
    simp only [exampleFilter, List.mem_cons, List.not_mem_nil, or_false] at hd
    rcases hd with rfl | rfl | rfl | rfl <;> decide
  · intro d hd
    simp only [exampleOutput, List.mem_cons, List.not_mem_nil, or_false] at hd
    rcases hd with rfl | rfl | rfl | rfl <;> decide
  · intro co x y n hi ci dy dx hci hdy hdx
    have hci : 0 ≤ ci ∧ ci < 0 + 1 := hci
    have hdy : 0 ≤ dy ∧ dy < 0 + 1 := hdy
    have hdx : 0 ≤ dx ∧ dx < 0 + 2 := hdx
    obtain ⟨h1, h2, h3, h4, -⟩ := hi
    dsimp only at h1 h2 h3 h4
    refine ⟨⟨?_, ?_, ?_, ?_, trivial⟩, ⟨?_, ?_, ?_, ?_, trivial⟩⟩ <;> dsimp only <;> omega
  · intro i j hi hj e
    obtain ⟨x, rfl, hx⟩ := four hi
    obtain ⟨y, rfl, hy⟩ := four hj
    unfold exampleOutput at e
    rw [addr, addr] at e
    rw [show x = y by omega]
  · intro i hi j
    obtain ⟨x, rfl, hx⟩ := four hi
    unfold exampleOutput
    rw [addr]
    refine ⟨fun hj => ?_, fun hj => ?_, fun hj => ?_⟩
    · obtain ⟨y, rfl, hy⟩ := four hj
      unfold exampleInput
      rw [addr]
      omega
    · obtain ⟨y, rfl, hy⟩ := four hj
      unfold exampleFilter
      rw [addr]
      omega
    · match j, hj with
      | [y], hj =>
        obtain ⟨h1, -⟩ := hj
        dsimp only at h1
        simp only [addressOf, offsetOf, exampleBias]
        omega

/-- Three output columns in tiles of two: the tiles overlap.  Input 0, 1, 2, 3; filter 10, 11; bias -40. -/
example : ∃ m', convTiled intOps true 2 1 exampleInput exampleFilter exampleBias exampleOutput
    (fun p => if p = 20 then -40 else p) = some m' ∧ [m' 30, m' 31, m' 32, m' 33] = [0, 0, 13, 33] := by
  obtain ⟨m', e, h, h'⟩ := C54_tiled intOps _ _ _ _ _ _ _ _ (fun p => if p = 20 then -40 else p) true 2 1
    example_convolvable (by decide) (by decide) (Or.inl (by decide)) (Or.inl (by decide))
  have hb : ∀ x, 0 ≤ x → x < 3 → InBox exampleOutput.shape [0, x, 0, 0] := by
    intro x h0 h1
    refine ⟨?_, ?_, ?_, ?_, trivial⟩ <;> dsimp only <;> omega
  have e0 : m' 30 = 0 := (h 0 0 0 0 (hb 0 (by omega) (by omega))).trans (by decide)
  have e1 : m' 31 = 0 := (h 0 1 0 0 (hb 1 (by omega) (by omega))).trans (by decide)
  have e2 : m' 32 = 13 := (h 0 2 0 0 (hb 2 (by omega) (by omega))).trans (by decide)
  have e3 : m' 33 = 33 := (h' 33 (by
    intro i hi
    match i, hi with
    | [a, x, c, d], hi =>
      obtain ⟨h1, h2, h3, h4, -⟩ := hi
      dsimp only at h1 h2 h3 h4
      simp only [addressOf, offsetOf, exampleOutput]
      omega)).trans (by decide)
  exact ⟨m', e, by rw [e0, e1, e2, e3]⟩

end Nda
