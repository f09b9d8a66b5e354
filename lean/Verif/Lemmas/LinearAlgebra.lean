import Verif.Lemmas.MemLoops
import Verif.Lemmas.ResampleImage
import Verif.Props.ZOrder
/-
Lemmas about matrix multiplication (C52).
-/
namespace Nda
open Spec Classical
variable {F : Type} {o : ScalarOps F}

/-- A view that the product of `A` and `B` can be accumulated in. -/
structure MulView (A B T : Image2) (a b t : Int) : Prop where
  aBase : A.base = some a
  bBase : B.base = some b
  tBase : T.base = some t
  rows : ∀ i, inDim T.i i → inDim A.i i
  cols : ∀ j, inDim T.j j → inDim B.j j
  inner : ∀ k, inDim A.j k → inDim B.i k
  inj : ∀ i j i' j', inDim T.i i → inDim T.j j → inDim T.i i' → inDim T.j j' →
    elementAddress T t i j = elementAddress T t i' j' → i = i' ∧ j = j'
  sep : ∀ p, ElementOf T t p → ¬ ElementOf A a p ∧ ¬ ElementOf B b p

theorem Spec.Multipliable.mulView {A B C : Image2} {a b c : Int} (h : Multipliable A B C a b c) :
    MulView A B C a b c where
  aBase := h.matA.base
  bBase := h.matB.base
  tBase := h.matC.base
  rows := h.rows
  cols := h.cols
  inner k hk := by
    have := h.inner
    unfold SameBounds at this
    unfold inDim at hk ⊢
    omega
  inj := h.injective
  sep := h.separate

theorem Image2.at_eq {a : Image2} {b i j : Int} (hb : a.base = some b) (hi : inDim a.i i) (hj : inDim a.j j) :
    a.at_ i j = some (elementAddress a b i j) := by
  unfold inDim at hi hj
  unfold Image2.at_
  rw [if_pos, hb]
  · simp only [pointerAdd, values, dims, List.map_cons, List.map_nil, flatOffset_eq, offsetOf, elementAddress]
    simp only [Option.map_some, Option.some.injEq]
    ring
  · simp only [Dim.isInRange, Dim.max, Bool.and_eq_true]
    exact ⟨⟨decide_eq_true (by omega), decide_eq_true (by omega)⟩, decide_eq_true (by omega),
      decide_eq_true (by omega)⟩

/-- The cells of `A` and `B`. -/
def Operands (A B : Image2) (a b : Int) (p : Int) : Prop := ElementOf A a p ∨ ElementOf B b p

section
variable {A B T : Image2} {a b t : Int}

theorem MulView.not_operand (h : MulView A B T a b t) {i j : Int} (hi : inDim T.i i) (hj : inDim T.j j) :
    ¬ Operands A B a b (elementAddress T t i j) := by
  have := h.sep _ ⟨i, j, hi, hj, rfl⟩
  rintro (h' | h')
  · exact this.1 h'
  · exact this.2 h'

/-- One multiply-add. -/
theorem mulAdd_step (h : MulView A B T a b t) {r m : Mem F} (hm : ∀ p, Operands A B a b p → m p = r p)
    {i j k : Int} (hi : inDim T.i i) (hj : inDim T.j j) (hk : inDim A.j k) :
    mulAddAt o (T.at_ i j) (A.at_ i k) (B.at_ k j) m =
      some (m.set (elementAddress T t i j) (o.add (m (elementAddress T t i j))
        (o.mul (r (elementAddress A a i k)) (r (elementAddress B b k j))))) := by
  rw [Image2.at_eq h.tBase hi hj, Image2.at_eq h.aBase (h.rows i hi) hk,
    Image2.at_eq h.bBase (h.inner k hk) (h.cols j hj)]
  unfold mulAddAt
  simp only [Option.bind_eq_bind, Option.bind_some, Option.pure_def]
  rw [hm _ (Or.inl ⟨i, k, h.rows i hi, hk, rfl⟩), hm _ (Or.inr ⟨k, j, h.inner k hk, h.cols j hj, rfl⟩)]

/-- `W k p` is the product to be added for `k` to the cell at `p`. -/
def IsTerm (o : ScalarOps F) (A B T : Image2) (a b t : Int) (r : Mem F) (W : Int → Int → F) : Prop :=
  ∀ i j k, inDim T.i i → inDim T.j j → W k (elementAddress T t i j) =
    o.mul (r (elementAddress A a i k)) (r (elementAddress B b k j))

theorem exists_term (h : MulView A B T a b t) (o : ScalarOps F) (r : Mem F) :
    ∃ W, IsTerm o A B T a b t r W := by
  choose W hW using fun k => exists_byAddress o.zero (elementAddress T t) T.i.val.toInterval T.j.val.toInterval
    (fun i j => o.mul (r (elementAddress A a i k)) (r (elementAddress B b k j))) h.inj
  exact ⟨W, fun i j k hi hj => hW k i j hi hj⟩

theorem accumulateTile_spec (h : MulView A B T a b t) {r : Mem F} {W : Int → Int → F}
    (hW : IsTerm o A B T a b t r W) {ks is js : Interval} (hk : 0 ≤ ks.extent) (hi : 0 ≤ is.extent)
    (hj : 0 ≤ js.extent) (hks : ∀ k, InInterval ks k → inDim A.j k) (his : ∀ i, InInterval is i → inDim T.i i)
    (hjs : ∀ j, InInterval js j → inDim T.j j) (m : Mem F) (hm : ∀ p, Operands A B a b p → m p = r p) :
    ∃ m', accumulateTile o A B T ks is js m = some m' ∧ (∀ p, Operands A B a b p → m' p = r p) ∧
      ∀ p, m' p = if Rect (elementAddress T t) is js p then
        (ints ks.min ks.extent).foldl (fun s k => o.add s (W k p)) (m p) else m p := by
  refine run_same (Rect (elementAddress T t) is js) hk _ (fun k p s => o.add s (W k p)) (Operands A B a b) r
    ?_ ?_ m hm
  · intro k m hkk hm
    refine run_rect (elementAddress T t) hi hj
      (fun m i j => mulAddAt o (T.at_ i j) (A.at_ i k) (B.at_ k j) m) (fun p s => o.add s (W k p))
      (Operands A B a b) r ?_ ?_ ?_ m hm
    · intro i j i' j' h1 h2 h3 h4
      exact h.inj _ _ _ _ (his _ h1) (hjs _ h2) (his _ h3) (hjs _ h4)
    · intro i j m h1 h2 hm
      rw [mulAdd_step h hm (his _ h1) (hjs _ h2) (hks _ hkk), hW i j k (his _ h1) (hjs _ h2)]
    · intro i j h1 h2
      exact h.not_operand (his _ h1) (hjs _ h2)
  · rintro p ⟨i, j, h1, h2, rfl⟩
    exact h.not_operand (his _ h1) (hjs _ h2)

theorem zeroRow_spec (h : MulView A B T a b t) {r : Mem F} (hj : 0 ≤ T.j.val.extent) {i : Int} (hi : inDim T.i i)
    (m : Mem F) (hm : ∀ p, Operands A B a b p → m p = r p) :
    ∃ m', forRange T.j.val.toInterval (fun m j => storeAt (T.at_ i j) o.zero m) m = some m' ∧
      (∀ p, Operands A B a b p → m' p = r p) ∧
      ∀ p, m' p = if ∃ j, inDim T.j j ∧ p = elementAddress T t i j then o.zero else m p :=
  run_line (js := T.j.val.toInterval) (elementAddress T t i) hj _ (fun _ _ => o.zero) (Operands A B a b) r
    (fun j j' h1 h2 e => (h.inj _ _ _ _ hi h1 hi h2 e).2)
    (fun j m h1 _ => by rw [Image2.at_eq h.tBase hi h1]; rfl)
    (fun j h1 => h.not_operand hi h1) m hm

theorem mulRow_spec (h : MulView A B T a b t) {r : Mem F} {W : Int → Int → F}
    (hW : IsTerm o A B T a b t r W) (hj : 0 ≤ T.j.val.extent) {i k : Int} (hi : inDim T.i i) (hk : inDim A.j k)
    (m : Mem F) (hm : ∀ p, Operands A B a b p → m p = r p) :
    ∃ m', forRange T.j.val.toInterval (fun m j => mulAddAt o (T.at_ i j) (A.at_ i k) (B.at_ k j) m) m = some m' ∧
      (∀ p, Operands A B a b p → m' p = r p) ∧
      ∀ p, m' p = if ∃ j, inDim T.j j ∧ p = elementAddress T t i j then o.add (m p) (W k p) else m p :=
  run_line (js := T.j.val.toInterval) (elementAddress T t i) hj _ (fun p s => o.add s (W k p)) (Operands A B a b) r
    (fun j j' h1 h2 e => (h.inj _ _ _ _ hi h1 hi h2 e).2)
    (fun j m h1 hm => by rw [mulAdd_step h hm hi h1 hk, hW i j k hi h1])
    (fun j h1 => h.not_operand hi h1) m hm

/-- The value of the cell at `p`. -/
def valueOf (o : ScalarOps F) (ks : Interval) (W : Int → Int → F) (p : Int) : F :=
  (ints ks.min ks.extent).foldl (fun s k => o.add s (W k p)) o.zero

theorem valueOf_eq {r : Mem F} {W : Int → Int → F} (hW : IsTerm o A B T a b t r W) (ks : Interval) {i j : Int}
    (hi : inDim T.i i) (hj : inDim T.j j) :
    valueOf o ks W (elementAddress T t i j) = dotFrom o A B a b r ks o.zero i j := by
  unfold valueOf dotFrom
  have : (fun s k => o.add s (W k (elementAddress T t i j))) = fun s k =>
      o.add s (o.mul (r (elementAddress A a i k)) (r (elementAddress B b k j))) := by
    funext s k
    rw [hW i j k hi hj]
  rw [this]
  rfl

/-- The product, in terms of `valueOf`. -/
theorem isProduct_of {c n buf : Int} {C : Image2} {m m' : Mem F} {W : Int → Int → F} (hW : IsTerm o A B C a b c m W)
    (h : ∀ p, ¬ (buf ≤ p ∧ p < buf + n) → m' p = if ElementOf C c p then valueOf o A.j.val.toInterval W p else m p)
    (hb : ∀ p, ElementOf C c p → ¬ (buf ≤ p ∧ p < buf + n)) :
    IsProduct o A B C a b c buf n m m' := by
  refine ⟨fun i j hi hj => ?_, fun p hp hb => ?_⟩
  · have he : ElementOf C c (elementAddress C c i j) := ⟨i, j, hi, hj, rfl⟩
    rw [h _ (hb _ he), if_pos he, valueOf_eq hW _ hi hj]
  · rw [h p hb, if_neg hp]

end

theorem foldlM_total {σ β : Type} {f : σ → β → Option σ} {g : σ → β → σ} : ∀ {l : List β} {s : σ},
    (∀ x ∈ l, ∀ s, f s x = some (g s x)) → l.foldlM f s = some (l.foldl g s)
  | [], _, _ => rfl
  | x :: l, s, h => by
    rw [List.foldlM_cons, h x (by simp) s]
    exact foldlM_total fun y hy => h y (by simp [hy])

theorem dense_index {R C i j : Int} (h1 : 0 ≤ i) (h2 : i < R) (h3 : 0 ≤ j) (h4 : j < C) :
    0 ≤ i * C + j ∧ i * C + j < R * C := by
  constructor
  · have : 0 ≤ i * C := Int.mul_nonneg h1 (by omega)
    omega
  · have : i * C + C ≤ R * C := by nlinarith
    omega

theorem dense_inj {C i j i' j' : Int} (h3 : 0 ≤ j) (h4 : j < C) (h5 : 0 ≤ j') (h6 : j' < C)
    (e : i * C + j = i' * C + j') : i = i' ∧ j = j' := by
  have : i = i' := by
    rcases lt_trichotomy i i' with h | h | h
    · have : i * C + C ≤ i' * C := by nlinarith
      omega
    · exact h
    · have : i' * C + C ≤ i * C := by nlinarith
      omega
  subst this
  exact ⟨rfl, by omega⟩

theorem denseMatrix_element {p R C q : Int} (h : ElementOf (denseMatrix p R C) p q) : p ≤ q ∧ q < p + R * C := by
  obtain ⟨i, j, hi, hj, rfl⟩ := h
  simp only [inDim, denseMatrix, zero_add] at hi hj
  have := dense_index hi.1 hi.2 hj.1 hj.2
  simp only [elementAddress, denseMatrix, sub_zero, mul_one]
  omega

theorem denseMatrix_isMatrix {p R C : Int} (hR : 0 ≤ R) (hC : 0 ≤ C) : IsMatrix (denseMatrix p R C) p :=
  ⟨rfl, ⟨rfl, hR⟩, rfl, hC, rfl⟩

theorem denseMatrix_multipliable {a b c M K N : Int} (hM : 0 ≤ M) (hK : 0 ≤ K) (hN : 0 ≤ N)
    (hA : ∀ p, a ≤ p → p < a + M * K → ¬ (c ≤ p ∧ p < c + M * N))
    (hB : ∀ p, b ≤ p → p < b + K * N → ¬ (c ≤ p ∧ p < c + M * N)) :
    Multipliable (denseMatrix a M K) (denseMatrix b K N) (denseMatrix c M N) a b c where
  matA := denseMatrix_isMatrix hM hK
  matB := denseMatrix_isMatrix hK hN
  matC := denseMatrix_isMatrix hM hN
  inner := ⟨rfl, rfl⟩
  rows _ h := h
  cols _ h := h
  injective i j i' j' hi hj hi' hj' e := by
    simp only [inDim, denseMatrix, zero_add] at hi hj hi' hj'
    simp only [elementAddress, denseMatrix, sub_zero, mul_one] at e
    exact dense_inj hj.1 hj.2 hj'.1 hj'.2 (by omega)
  separate p hp := by
    have hc := denseMatrix_element hp
    constructor
    · intro h
      have := denseMatrix_element h
      exact hA p this.1 this.2 hc
    · intro h
      have := denseMatrix_element h
      exact hB p this.1 this.2 hc

end Nda
