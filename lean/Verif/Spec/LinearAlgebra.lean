import Verif.Model.LinearAlgebra
import Verif.Spec.Ein
import Verif.Spec.Resample
import Mathlib.Logic.Function.Iterate
/-
Specification vocabulary for the matrix multiplication examples (C52).
-/
namespace Nda.Spec
variable {F : Type}

/-- The address of element `(i, j)` of a view whose base is `b`. -/
def elementAddress (a : Image2) (b i j : Int) : Int :=
  b + (i - a.i.val.min) * a.i.val.stride + (j - a.j.val.min) * a.j.val.stride

/-- `p` is the address of an element. -/
def ElementOf (a : Image2) (b p : Int) : Prop := ∃ i j, inDim a.i i ∧ inDim a.j j ∧ p = elementAddress a b i j

/-- A `matrix_ref<T>` with memory. -/
structure IsMatrix (a : Image2) (b : Int) : Prop where
  base : a.base = some b
  rows : a.i.ty = ⟨dynamic, dynamic, dynamic⟩ ∧ 0 ≤ a.i.val.extent
  cols : a.j.ty = ⟨dynamic, dynamic, 1⟩ ∧ 0 ≤ a.j.val.extent ∧ a.j.val.stride = 1

/-- Matrices as needed to compute `C = A * B`: the columns of `A` are the rows of `B`, `A` has the rows of
`C` and `B` its columns; distinct elements of `C` have distinct addresses, which are not those of elements
of `A` and `B`. -/
structure Multipliable (A B C : Image2) (a b c : Int) : Prop where
  matA : IsMatrix A a
  matB : IsMatrix B b
  matC : IsMatrix C c
  inner : SameBounds A.j B.i
  rows : ∀ i, inDim C.i i → inDim A.i i
  cols : ∀ j, inDim C.j j → inDim B.j j
  injective : ∀ i j i' j', inDim C.i i → inDim C.j j → inDim C.i i' → inDim C.j j' →
    elementAddress C c i j = elementAddress C c i' j' → i = i' ∧ j = j'
  separate : ∀ p, ElementOf C c p → ¬ ElementOf A a p ∧ ¬ ElementOf B b p

/-- The integers of an interval, in ascending order. -/
def ascending (v : Interval) : List Int := (List.range v.extent.toNat).map fun k : Nat => v.min + (k : Int)

/-- `Σ_k A(i, k) * B(k, j)` over an interval of `k`, added up in ascending order of `k` to `s`. -/
def dotFrom (o : ScalarOps F) (A B : Image2) (a b : Int) (m : Int → F) (ks : Interval) (s : F) (i j : Int) : F :=
  (ascending ks).foldl (fun s k =>
    o.add s (o.mul (m (elementAddress A a i k)) (m (elementAddress B b k j)))) s

/-- `C = A * B`, and nothing else changes, except possibly the elements of a local buffer of `n` elements
at address `buf`. -/
def IsProduct (o : ScalarOps F) (A B C : Image2) (a b c buf n : Int) (m m' : Int → F) : Prop :=
  (∀ i j, inDim C.i i → inDim C.j j →
    m' (elementAddress C c i j) = dotFrom o A B a b m A.j.val.toInterval o.zero i j) ∧
  ∀ p, ¬ ElementOf C c p → ¬ (buf ≤ p ∧ p < buf + n) → m' p = m p

/-- The local buffer is not in any of the matrices. -/
def BufferFree (A B C : Image2) (a b c buf n : Int) : Prop :=
  ∀ p, buf ≤ p → p < buf + n → ¬ ElementOf A a p ∧ ¬ ElementOf B b p ∧ ¬ ElementOf C c p

/-- A dense matrix without padding whose first element is at `p`. -/
def denseMatrix (p rows cols : Int) : Image2 :=
  ⟨some p, ⟨⟨dynamic, dynamic, dynamic⟩, ⟨0, rows, cols⟩⟩, ⟨⟨dynamic, dynamic, 1⟩, ⟨0, cols, 1⟩⟩⟩

/-- The indices of `e` are between the first and the last one of `d`. -/
def Encloses (d e : SDim) : Prop :=
  d.val.min ≤ e.val.min ∧ e.val.min + e.val.extent ≤ d.val.min + d.val.extent

/-- A dim that `split<N>` can be used with: at least `N` indices, or none if assertions are off. -/
def Splittable (debug : Bool) (N : Int) (d : SDim) : Prop :=
  N ≤ d.val.extent ∨ (debug = false ∧ d.val.extent = 0)

/-- An interval cut into blocks of `n` indices; the last one may be shorter. -/
def blocks (n : Int) (v : Interval) : List Interval :=
  (List.range ((v.extent + n - 1) / n).toNat).map fun t : Nat => ⟨v.min + n * (t : Int), min n (v.extent - n * (t : Int))⟩

/-- The number of intervals of `split<N>` that have index `x`: if `N` does not divide the extent, the last two
intervals overlap. -/
def tileCount (N : Int) (d : SDim) (x : Int) : Nat :=
  if d.val.extent - N ≤ x - d.val.min ∧ x - d.val.min < (d.val.extent - 1) / N * N then 2 else 1

/-- `s + v + ... + v`, `n` times. -/
def addTimes (o : ScalarOps F) (n : Nat) (v s : F) : F := (fun s => o.add s v)^[n] s

end Nda.Spec
