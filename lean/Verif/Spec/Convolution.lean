import Verif.Model.Convolution
import Verif.Spec.LinearAlgebra
/-
Specification vocabulary for the convolution example (C54).
-/
namespace Nda.Spec
variable {F : Type}

/-- The address of element `i` of a view whose base is `b`. -/
def addressOf (a : ArrayRef) (b : Int) (i : List Int) : Int := b + offsetOf a.shape i

/-- The indices of dim `k`. -/
def indicesOf (a : ArrayRef) (k : Nat) : Interval := ⟨(a.shape.getD k ⟨0, 0, 0⟩).min, (a.shape.getD k ⟨0, 0, 0⟩).extent⟩

/-- Arrays as needed for a convolution: every output element has its bias, its filter values and the input values
below the filter; distinct output elements have distinct addresses, which are not those of elements of the
other arrays. -/
structure Convolvable (input filter bias output : ArrayRef) (bi bf bb bo : Int) : Prop where
  inputBase : input.base = some bi
  filterBase : filter.base = some bf
  biasBase : bias.base = some bb
  outputBase : output.base = some bo
  filterRank : filter.shape.length = 4 ∧ NonNeg filter.shape
  outputRank : output.shape.length = 4 ∧ NonNeg output.shape
  biasRead : ∀ co x y n, InBox output.shape [co, x, y, n] → InBox bias.shape [co]
  read : ∀ co x y n, InBox output.shape [co, x, y, n] → ∀ ci dy dx, InInterval (indicesOf filter 3) ci →
    InInterval (indicesOf filter 2) dy → InInterval (indicesOf filter 1) dx →
    InBox filter.shape [co, dx, dy, ci] ∧ InBox input.shape [ci, x + dx, y + dy, n]
  injective : ∀ i j, InBox output.shape i → InBox output.shape j → addressOf output bo i = addressOf output bo j → i = j
  separate : ∀ i, InBox output.shape i → ∀ j,
    (InBox input.shape j → addressOf output bo i ≠ addressOf input bi j) ∧
    (InBox filter.shape j → addressOf output bo i ≠ addressOf filter bf j) ∧
    (InBox bias.shape j → addressOf output bo i ≠ addressOf bias bb j)

/-- `bias(co) + Σ_ci Σ_dy Σ_dx filter(co, dx, dy, ci) * input(ci, x + dx, y + dy, n)`, in ascending order. -/
def convolution (o : ScalarOps F) (input filter bias : ArrayRef) (bi bf bb : Int) (m : Int → F) (co x y n : Int) : F :=
  (ascending (indicesOf filter 3)).foldl (fun s ci =>
    (ascending (indicesOf filter 2)).foldl (fun s dy =>
      (ascending (indicesOf filter 1)).foldl (fun s dx =>
        o.add s (o.mul (m (addressOf filter bf [co, dx, dy, ci])) (m (addressOf input bi [ci, x + dx, y + dy, n]))))
        s) s) (m (addressOf bias bb [co]))

/-- The output is the convolution, followed by `relu`, and nothing else changes. -/
def IsLayer (o : ScalarOps F) (relu : F → F) (input filter bias output : ArrayRef) (bi bf bb bo : Int)
    (m m' : Int → F) : Prop :=
  (∀ co x y n, InBox output.shape [co, x, y, n] → m' (addressOf output bo [co, x, y, n]) =
    relu (convolution o input filter bias bi bf bb m co x y n)) ∧
  ∀ p, (∀ i, InBox output.shape i → p ≠ addressOf output bo i) → m' p = m p

/-- Dim `k` can be split by `split<N>`: at least `N` indices, or none if assertions are off. -/
def SplittableAxis (debug : Bool) (N : Int) (a : ArrayRef) (k : Nat) : Prop :=
  N ≤ (indicesOf a k).extent ∨ (debug = false ∧ (indicesOf a k).extent = 0)

end Nda.Spec
