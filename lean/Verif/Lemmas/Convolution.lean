import Verif.Spec.Convolution
import Verif.Lemmas.MatrixTiles
import Verif.Props.Views
/-
Lemmas about the convolution example (C54).
-/
namespace Nda
open Spec Classical
variable {F : Type} {o : ScalarOps F}

/-- A function of the index can be given as a function of the address. -/
theorem exists_byIndex {β : Type} (d : F) (P : β → Prop) (addr : β → Int) (f : β → F)
    (hinj : ∀ i j, P i → P j → addr i = addr j → i = j) : ∃ V : Int → F, ∀ i, P i → V (addr i) = f i := by
  refine ⟨fun p => if h : ∃ i, P i ∧ p = addr i then f h.choose else d, fun i hi => ?_⟩
  have h : ∃ j, P j ∧ addr i = addr j := ⟨i, hi, rfl⟩
  beta_reduce
  rw [dif_pos h]
  exact congrArg f (hinj _ _ hi h.choose_spec.1 h.choose_spec.2).symm

theorem element_eq {a : ArrayRef} {b : Int} (hb : a.base = some b) {i : List Int} (hi : InBox a.shape i) :
    a.element i = some (addressOf a b i) := by
  have hl : ∀ (s : List Dim) (i : List Int), InBox s i → i.length = s.length := by
    intro s
    induction s with
    | nil => intro i hi; cases i with
      | nil => rfl
      | cons _ _ => exact absurd hi id
    | cons d s ih => intro i hi; cases i with
      | nil => exact absurd hi id
      | cons x i => exact congrArg Nat.succ (ih i hi.2)
  unfold ArrayRef.element
  rw [if_pos ((isInRange_iff _ _ (hl _ _ hi)).2 hi)]
  unfold ArrayRef.at_ addressOf
  rw [hb, flatOffset_eq]
  rfl

/-- The loops over `ci`, `dy` and `dx`. -/
def foldFilter (filter : ArrayRef) (f : Int → Int → Int → F → F) (s : F) : F :=
  (ascending (indicesOf filter 3)).foldl (fun s ci =>
    (ascending (indicesOf filter 2)).foldl (fun s dy =>
      (ascending (indicesOf filter 1)).foldl (fun s dx => f ci dy dx s) s) s) s

theorem axis_nonneg {a : ArrayRef} (h : NonNeg a.shape) (k : Nat) : 0 ≤ (a.axis k).extent := by
  show 0 ≤ (a.shape.getD k ⟨0, 0, 0⟩).extent
  rw [List.getD_eq_getElem?_getD]
  cases e : a.shape[k]? with
  | none => exact le_refl _
  | some d => exact h d (List.mem_of_getElem? e)

theorem forFilter_spec {filter : ArrayRef} (hf : NonNeg filter.shape) (R S : Int → Prop) (r : Mem F)
    (body : Int → Int → Int → Mem F → Option (Mem F)) (g : Int → Int → Int → Int → F → F)
    (hs : ∀ ci dy dx m, InInterval (indicesOf filter 3) ci → InInterval (indicesOf filter 2) dy →
      InInterval (indicesOf filter 1) dx → (∀ p, S p → m p = r p) →
      ∃ m', body ci dy dx m = some m' ∧ (∀ p, S p → m' p = r p) ∧ ∀ p, m' p = if R p then g ci dy dx p (m p) else m p)
    (hS : ∀ p, R p → ¬ S p) (m : Mem F) (hm : ∀ p, S p → m p = r p) :
    ∃ m', forFilter filter body m = some m' ∧ (∀ p, S p → m' p = r p) ∧
      ∀ p, m' p = if R p then foldFilter filter (fun ci dy dx s => g ci dy dx p s) (m p) else m p :=
  run_same R (axis_nonneg hf 3) _ (fun ci p s => (ascending (indicesOf filter 2)).foldl (fun s dy =>
      (ascending (indicesOf filter 1)).foldl (fun s dx => g ci dy dx p s) s) s) S r
    (fun ci m hci hm => run_same R (axis_nonneg hf 2) _ (fun dy p s =>
      (ascending (indicesOf filter 1)).foldl (fun s dx => g ci dy dx p s) s) S r
      (fun dy m hdy hm => run_same R (axis_nonneg hf 1) _ (fun dx p s => g ci dy dx p s) S r
        (fun dx m hdx hm => hs ci dy dx m hci hdy hdx hm) hS m hm) hS m hm) hS m hm

section
variable {input filter bias output : ArrayRef} {bi bf bb bo : Int}

/-- The cells that are read. -/
def ConvOperands (input filter bias : ArrayRef) (bi bf bb p : Int) : Prop :=
  ∃ j, (InBox input.shape j ∧ p = addressOf input bi j) ∨ (InBox filter.shape j ∧ p = addressOf filter bf j) ∨
    (InBox bias.shape j ∧ p = addressOf bias bb j)

theorem not_convOperand (h : Convolvable input filter bias output bi bf bb bo) {i : List Int}
    (hi : InBox output.shape i) : ¬ ConvOperands input filter bias bi bf bb (addressOf output bo i) := by
  rintro ⟨j, ⟨hj, e⟩ | ⟨hj, e⟩ | ⟨hj, e⟩⟩
  · exact (h.separate i hi j).1 hj e
  · exact (h.separate i hi j).2.1 hj e
  · exact (h.separate i hi j).2.2 hj e

theorem box4 (hr : output.shape.length = 4) (co x y n : Int) : InBox output.shape [co, x, y, n] ↔
    InInterval (output.axis 0) co ∧ InInterval (output.axis 1) x ∧ InInterval (output.axis 2) y ∧
      InInterval (output.axis 3) n := by
  unfold ArrayRef.axis
  match output.shape, hr with
  | [d0, d1, d2, d3], _ => simp [InBox, InInterval, Dim.toInterval]

theorem box4_of (hr : output.shape.length = 4) {i : List Int} (hi : InBox output.shape i) :
    ∃ co x y n, i = [co, x, y, n] := by
  match output.shape, hr, i, hi with
  | [d0, d1, d2, d3], _, [co, x, y, n], _ => exact ⟨co, x, y, n, rfl⟩

/-- `V` is the bias and `W` the product for the output element at an address. -/
structure ConvTerms (o : ScalarOps F) (input filter bias output : ArrayRef) (bi bf bb bo : Int) (r : Mem F)
    (V : Int → F) (W : Int → Int → Int → Int → F) : Prop where
  bias : ∀ co x y n, InBox output.shape [co, x, y, n] → V (addressOf output bo [co, x, y, n]) = r (addressOf bias bb [co])
  term : ∀ ci dy dx co x y n, InBox output.shape [co, x, y, n] → W ci dy dx (addressOf output bo [co, x, y, n]) =
    o.mul (r (addressOf filter bf [co, dx, dy, ci])) (r (addressOf input bi [ci, x + dx, y + dy, n]))

theorem exists_convTerms (h : Convolvable input filter bias output bi bf bb bo) (o : ScalarOps F) (r : Mem F) :
    ∃ V W, ConvTerms o input filter bias output bi bf bb bo r V W := by
  have hinj : ∀ i j : Int × Int × Int × Int, InBox output.shape [i.1, i.2.1, i.2.2.1, i.2.2.2] →
      InBox output.shape [j.1, j.2.1, j.2.2.1, j.2.2.2] →
      addressOf output bo [i.1, i.2.1, i.2.2.1, i.2.2.2] = addressOf output bo [j.1, j.2.1, j.2.2.1, j.2.2.2] → i = j := by
    rintro ⟨a, b, c, d⟩ ⟨a', b', c', d'⟩ h1 h2 e
    have := h.injective _ _ h1 h2 e
    simp only [List.cons.injEq, and_true] at this
    simp only [Prod.mk.injEq]
    exact this
  obtain ⟨V, hV⟩ := exists_byIndex o.zero _ _ (fun i : Int × Int × Int × Int => r (addressOf bias bb [i.1])) hinj
  choose W hW using fun k : Int × Int × Int => exists_byIndex o.zero _ _ (fun i : Int × Int × Int × Int =>
    o.mul (r (addressOf filter bf [i.1, k.2.2, k.2.1, k.1]))
      (r (addressOf input bi [k.1, i.2.1 + k.2.2, i.2.2.1 + k.2.1, i.2.2.2]))) hinj
  exact ⟨V, fun ci dy dx => W (ci, dy, dx), fun co x y n hb => hV (co, x, y, n) hb,
    fun ci dy dx co x y n hb => hW (ci, dy, dx) (co, x, y, n) hb⟩

/-- The convolution for the output element at address `p`. -/
def convValue (o : ScalarOps F) (filter : ArrayRef) (V : Int → F) (W : Int → Int → Int → Int → F) (p : Int) : F :=
  foldFilter filter (fun ci dy dx s => o.add s (W ci dy dx p)) (V p)

theorem convValue_eq {r : Mem F} {V : Int → F} {W : Int → Int → Int → Int → F}
    (hW : ConvTerms o input filter bias output bi bf bb bo r V W) {co x y n : Int}
    (hi : InBox output.shape [co, x, y, n]) :
    convValue o filter V W (addressOf output bo [co, x, y, n]) =
      convolution o input filter bias bi bf bb r co x y n := by
  unfold convValue convolution foldFilter
  rw [hW.bias co x y n hi]
  refine List.foldl_ext _ _ _ fun s ci _ => List.foldl_ext _ _ _ fun s dy _ => List.foldl_ext _ _ _ fun s dx _ => ?_
  beta_reduce
  rw [hW.term ci dy dx co x y n hi]

/-- One multiply-add. -/
theorem convMulAdd (h : Convolvable input filter bias output bi bf bb bo) {r m : Mem F} {V : Int → F}
    {W : Int → Int → Int → Int → F} (hW : ConvTerms o input filter bias output bi bf bb bo r V W)
    (hm : ∀ p, ConvOperands input filter bias bi bf bb p → m p = r p) {co x y n ci dy dx : Int}
    (hi : InBox output.shape [co, x, y, n]) (hci : InInterval (indicesOf filter 3) ci)
    (hdy : InInterval (indicesOf filter 2) dy) (hdx : InInterval (indicesOf filter 1) dx) :
    mulAddAt o (some (addressOf output bo [co, x, y, n])) (filter.element [co, dx, dy, ci])
        (input.element [ci, x + dx, y + dy, n]) m =
      some (m.set (addressOf output bo [co, x, y, n]) (o.add (m (addressOf output bo [co, x, y, n]))
        (W ci dy dx (addressOf output bo [co, x, y, n])))) := by
  obtain ⟨h1, h2⟩ := h.read co x y n hi ci dy dx hci hdy hdx
  rw [element_eq h.filterBase h1, element_eq h.inputBase h2, hW.term ci dy dx co x y n hi]
  unfold mulAddAt
  simp only [Option.bind_eq_bind, Option.bind_some, Option.pure_def]
  rw [hm _ ⟨_, Or.inr (Or.inl ⟨h1, rfl⟩)⟩, hm _ ⟨_, Or.inl ⟨h2, rfl⟩⟩]

/-- The loops over `n` and `y`. -/
theorem convOuter (h : Convolvable input filter bias output bi bf bb bo) (o : ScalarOps F) (relu : F → F) (m : Mem F)
    (body : Int → Int → Mem F → Option (Mem F))
    (hbody : ∀ V W, ConvTerms o input filter bias output bi bf bb bo m V W → ∀ n y m1,
      InInterval (output.axis 3) n → InInterval (output.axis 2) y →
      (∀ p, ConvOperands input filter bias bi bf bb p → m1 p = m p) → ∃ m', body n y m1 = some m' ∧
        ∀ p, m' p = if Rect (fun x co => addressOf output bo [co, x, y, n]) (output.axis 1) (output.axis 0) p then
          relu (convValue o filter V W p) else m1 p) :
    ∃ m', forRange (output.axis 3) (fun m n => forRange (output.axis 2) (fun m y => body n y m) m) m = some m' ∧
      IsLayer o relu input filter bias output bi bf bb bo m m' := by
  obtain ⟨V, W, hW⟩ := exists_convTerms h o m
  have hr := h.outputRank.1
  have hin : ∀ {n y p}, InInterval (output.axis 3) n → InInterval (output.axis 2) y →
      Rect (fun x co => addressOf output bo [co, x, y, n]) (output.axis 1) (output.axis 0) p →
      ∃ x co, InBox output.shape [co, x, y, n] ∧ p = addressOf output bo [co, x, y, n] := by
    rintro n y p hn hy ⟨x, co, hx, hco, rfl⟩
    exact ⟨x, co, (box4 hr _ _ _ _).2 ⟨hco, hx, hy, hn⟩, rfl⟩
  have hop : ∀ {n y p}, InInterval (output.axis 3) n → InInterval (output.axis 2) y →
      Rect (fun x co => addressOf output bo [co, x, y, n]) (output.axis 1) (output.axis 0) p →
      ¬ ConvOperands input filter bias bi bf bb p := by
    intro n y p hn hy hR
    obtain ⟨x, co, hb, rfl⟩ := hin hn hy hR
    exact not_convOperand h hb
  obtain ⟨m', e, -, h'⟩ := run_lines
    (fun n p => ∃ y, InInterval (output.axis 2) y ∧
      Rect (fun x co => addressOf output bo [co, x, y, n]) (output.axis 1) (output.axis 0) p)
    (axis_nonneg h.outputRank.2 3) (fun m n => forRange (output.axis 2) (fun m y => body n y m) m)
    (fun p _ => relu (convValue o filter V W p)) (ConvOperands input filter bias bi bf bb) m
    (by
      rintro n n' p hn hn' ⟨y, hy, hR⟩ ⟨y', hy', hR'⟩
      obtain ⟨x, co, hb, rfl⟩ := hin hn hy hR
      obtain ⟨x', co', hb', e⟩ := hin hn' hy' hR'
      have := h.injective _ _ hb hb' e
      simp only [List.cons.injEq, and_true] at this
      exact this.2.2.2)
    (fun n m1 hn hm1 => run_lines
      (fun y p => Rect (fun x co => addressOf output bo [co, x, y, n]) (output.axis 1) (output.axis 0) p)
      (axis_nonneg h.outputRank.2 2) (fun m y => body n y m) (fun p _ => relu (convValue o filter V W p))
      (ConvOperands input filter bias bi bf bb) m
      (by
        rintro y y' p hy hy' hR hR'
        obtain ⟨x, co, hb, rfl⟩ := hin hn hy hR
        obtain ⟨x', co', hb', e⟩ := hin hn hy' hR'
        have := h.injective _ _ hb hb' e
        simp only [List.cons.injEq, and_true] at this
        exact this.2.2)
      (fun y m2 hy hm2 => by
        obtain ⟨m3, e3, h3⟩ := hbody V W hW n y m2 hn hy hm2
        refine ⟨m3, e3, fun p hp => ?_, h3⟩
        rw [h3 p, if_neg (fun hR => hop hn hy hR hp), hm2 p hp])
      (fun y p hy hR => hop hn hy hR) m1 hm1)
    (by
      rintro n p hn ⟨y, hy, hR⟩
      exact hop hn hy hR) m (fun _ _ => rfl)
  refine ⟨m', e, fun co x y n hb => ?_, fun p hp => ?_⟩
  · rw [h', if_pos, convValue_eq hW hb]
    obtain ⟨h0, h1, h2, h3⟩ := (box4 hr _ _ _ _).1 hb
    exact ⟨n, h3, y, h2, x, co, h1, h0, rfl⟩
  · rw [h', if_neg]
    rintro ⟨n, hn, y, hy, hR⟩
    obtain ⟨x, co, hb, e⟩ := hin hn hy hR
    exact hp _ hb e

/-- The tile of the output. -/
theorem convTile_element (h : Convolvable input filter bias output bi bf bb bo) (coo xo : Interval) (y n : Int) :
    ∃ b' d0 d1, output.crop [.ivl coo, .ivl xo, .idx y, .idx n] = ⟨some b', [d0, d1]⟩ ∧
      d0.toInterval = coo ∧ d1.toInterval = xo ∧
      ∀ co x, b' + offsetOf [d0, d1] [co, x] = addressOf output bo [co, x, y, n] := by
  have hr := h.outputRank.1
  obtain ⟨b', e, -⟩ := C20_address output [.ivl coo, .ivl xo, .idx y, .idx n] hr.symm bo h.outputBase [0, 0] rfl
  have hs : ∃ d0 d1, (output.crop [.ivl coo, .ivl xo, .idx y, .idx n]).shape = [d0, d1] ∧ d0.toInterval = coo ∧
      d1.toInterval = xo := by
    show ∃ d0 d1, output.shape.crop [.ivl coo, .ivl xo, .idx y, .idx n] = [d0, d1] ∧ _
    match output.shape, hr with
    | [e0, e1, e2, e3], _ => exact ⟨_, _, rfl, rfl, rfl⟩
  obtain ⟨d0, d1, hs, h0, h1⟩ := hs
  refine ⟨b', d0, d1, ?_, h0, h1, fun co x => ?_⟩
  · rw [← hs, ← e]
  · obtain ⟨b'', e', h'⟩ := C20_address output [.ivl coo, .ivl xo, .idx y, .idx n] hr.symm bo h.outputBase [co, x] rfl
    rw [e] at e'
    cases e'
    rw [← hs, h']
    rfl

theorem convTile_spec (h : Convolvable input filter bias output bi bf bb bo) {r : Mem F} {V : Int → F}
    {W : Int → Int → Int → Int → F} (hW : ConvTerms o input filter bias output bi bf bb bo r V W) {n y : Int}
    (hn : InInterval (output.axis 3) n) (hy : InInterval (output.axis 2) y) {xo coo : Interval}
    (hx0 : 0 < xo.extent) (hc0 : 0 ≤ coo.extent) (hxo : ∀ x, InInterval xo x → InInterval (output.axis 1) x)
    (hcoo : ∀ co, InInterval coo co → InInterval (output.axis 0) co) (m : Mem F)
    (hm : ∀ p, ConvOperands input filter bias bi bf bb p → m p = r p) :
    ∃ m', convTile o input filter bias output n y xo coo m = some m' ∧
      ∀ p, m' p = if Rect (fun x co => addressOf output bo [co, x, y, n]) xo coo p then
        stdMax o o.zero (convValue o filter V W p) else m p := by
  have hr := h.outputRank.1
  have hbox : ∀ {x co}, InInterval xo x → InInterval coo co → InBox output.shape [co, x, y, n] :=
    fun hx hco => (box4 hr _ _ _ _).2 ⟨hcoo _ hco, hxo _ hx, hy, hn⟩
  have hinj : ∀ x co x' co', InInterval xo x → InInterval coo co → InInterval xo x' → InInterval coo co' →
      addressOf output bo [co, x, y, n] = addressOf output bo [co', x', y, n] → x = x' ∧ co = co' := by
    intro x co x' co' h1 h2 h3 h4 e
    have := h.injective _ _ (hbox h1 h2) (hbox h3 h4) e
    simp only [List.cons.injEq, and_true] at this
    exact ⟨this.2, this.1⟩
  have hno : ∀ x co, InInterval xo x → InInterval coo co →
      ¬ ConvOperands input filter bias bi bf bb (addressOf output bo [co, x, y, n]) :=
    fun x co hx hco => not_convOperand h (hbox hx hco)
  obtain ⟨b', d0, d1, et, t0, t1, ha⟩ := convTile_element h coo xo y n
  set tile := output.crop [.ivl coo, .ivl xo, .idx y, .idx n] with htile
  have hel : ∀ x co, InInterval xo x → InInterval coo co →
      tile.element [co, x] = some (addressOf output bo [co, x, y, n]) := by
    intro x co hx hco
    rw [← ha co x, et]
    rw [← t0] at hco
    rw [← t1] at hx
    exact element_eq rfl ⟨hco, hx, trivial⟩
  -- the bias
  obtain ⟨m1, e1, hm1, h1⟩ := run_lines (fun co p => ∃ x, InInterval xo x ∧ p = addressOf output bo [co, x, y, n])
    hc0 (fun m co => (bias.element [co]).bind fun b => some (fill (tile.crop [.idx co, .all]) (m b) m))
    (fun p _ => V p) (ConvOperands input filter bias bi bf bb) r
    (by
      rintro co co' p hco hco' ⟨x, hx, rfl⟩ ⟨x', hx', e⟩
      exact (hinj _ _ _ _ hx hco hx' hco' e).2)
    (fun co m1 hco hm1 => by
      have hx0' : InInterval xo xo.min := by unfold InInterval; omega
      have hb := h.biasRead _ _ _ _ (hbox hx0' hco)
      rw [element_eq h.biasBase hb, Option.bind_some]
      have hc : tile.crop [.idx co, .all] = ⟨some (b' + offsetOf [d0] [co]), [d1]⟩ := by
        rw [et]
        simp [ArrayRef.crop, Shape.crop, Shape.minsOfIntervals, Arg.minOfRange, pointerAdd, flatOffset_eq, offsetOf,
          Arg.rangeWithStride, Arg.skipSlices]
      rw [hc]
      have hd1 : 0 ≤ d1.extent := by
        have : d1.toInterval.extent = xo.extent := by rw [t1]
        have : d1.extent = xo.extent := this
        omega
      obtain ⟨f1, f2⟩ := C19_fill ⟨some (b' + offsetOf [d0] [co]), [d1]⟩ _ rfl
        (by intro d hd; simp only [List.mem_singleton] at hd; rw [hd]; exact hd1) (m1 (addressOf bias bb [co])) m1
      have hadd : ∀ x, b' + offsetOf [d0] [co] + offsetOf [d1] [x] = addressOf output bo [co, x, y, n] := by
        intro x
        rw [← ha co x]
        simp only [offsetOf]
        ring
      have f3 : ∀ p, fill ⟨some (b' + offsetOf [d0] [co]), [d1]⟩ (m1 (addressOf bias bb [co])) m1 p =
          if ∃ x, InInterval xo x ∧ p = addressOf output bo [co, x, y, n] then V p else m1 p := by
        intro p
        by_cases hp : ∃ x, InInterval xo x ∧ p = addressOf output bo [co, x, y, n]
        · rw [if_pos hp]
          obtain ⟨x, hx, rfl⟩ := hp
          rw [hW.bias _ _ _ _ (hbox hx hco), ← hm1 _ ⟨_, Or.inr (Or.inr ⟨hb, rfl⟩)⟩]
          rw [← t1] at hx
          have := f1 [x] ⟨hx, trivial⟩
          rw [hadd] at this
          exact this
        · rw [if_neg hp]
          apply f2
          intro i hi
          match i, hi with
          | [x], hi =>
            intro e
            rw [hadd] at e
            have hx := hi.1
            exact hp ⟨x, by rw [← t1]; exact hx, e⟩
      refine ⟨_, rfl, fun p hp => ?_, f3⟩
      rw [f3 p, if_neg, hm1 p hp]
      rintro ⟨x, hx, rfl⟩
      exact hno _ _ hx hco hp)
    (by
      rintro co p hco ⟨x, hx, rfl⟩
      exact hno _ _ hx hco) m hm
  -- the sums
  obtain ⟨m2, e2, hm2, h2⟩ := forFilter_spec h.filterRank.2
    (Rect (fun x co => addressOf output bo [co, x, y, n]) xo coo) (ConvOperands input filter bias bi bf bb) r
    (fun ci dy dx m => forRange xo (fun m x =>
      forRange coo (fun m co => mulAddAt o (tile.element [co, x]) (filter.element [co, dx, dy, ci])
        (input.element [ci, x + dx, y + dy, n]) m) m) m) (fun ci dy dx p s => o.add s (W ci dy dx p))
    (fun ci dy dx m hci hdy hdx hm => run_rect (fun x co => addressOf output bo [co, x, y, n]) hx0.le hc0
      (fun m x co => mulAddAt o (tile.element [co, x]) (filter.element [co, dx, dy, ci])
        (input.element [ci, x + dx, y + dy, n]) m) (fun p s => o.add s (W ci dy dx p))
      (ConvOperands input filter bias bi bf bb) r hinj (fun x co m hx hco hm => by
        rw [hel x co hx hco]
        exact convMulAdd h hW hm (hbox hx hco) hci hdy hdx) hno m hm)
    (by
      rintro p ⟨x, co, hx, hco, rfl⟩
      exact hno _ _ hx hco) m1 hm1
  -- the ReLU
  obtain ⟨m3, e3, -, h3⟩ := run_rect (fun x co => addressOf output bo [co, x, y, n]) hx0.le hc0
    (fun m x co => updateAt (tile.element [co, x]) (fun v => stdMax o o.zero v) m) (fun _ s => stdMax o o.zero s)
    (ConvOperands input filter bias bi bf bb) r hinj (fun x co m hx hco hm => by
      rw [hel x co hx hco]
      rfl) hno m2 hm2
  refine ⟨m3, ?_, fun p => ?_⟩
  · have e1 : fillTile bias tile coo m = some m1 := e1
    unfold convTile
    rw [← htile]
    simp only [e1, Option.bind_eq_bind, Option.bind_some, e2]
    exact e3
  · have hR : (∃ co, InInterval coo co ∧ ∃ x, InInterval xo x ∧ p = addressOf output bo [co, x, y, n]) ↔
        Rect (fun x co => addressOf output bo [co, x, y, n]) xo coo p := by
      constructor
      · rintro ⟨co, hco, x, hx, e⟩
        exact ⟨x, co, hx, hco, e⟩
      · rintro ⟨x, co, hx, hco, e⟩
        exact ⟨co, hco, x, hx, e⟩
    rw [h3 p, h2 p, h1 p]
    by_cases hp : Rect (fun x co => addressOf output bo [co, x, y, n]) xo coo p
    · rw [if_pos hp, if_pos hp, if_pos hp, if_pos (hR.2 hp)]
      rfl
    · rw [if_neg hp, if_neg hp, if_neg hp, if_neg (fun h => hp (hR.1 h))]

end
end Nda
