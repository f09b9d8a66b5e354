import Verif.Model.Ein
import Mathlib.Algebra.Ring.Defs
import Mathlib.Algebra.Field.Defs
import Mathlib.Order.Defs.LinearOrder
/-
The Einstein reductions of README.md and test/ein_reduce.cpp that use callable operands, maxima or arrays filled by
`for_all_indices`, as programs on memory.

Simplifications: an `int` returned by a callable operand is converted to the element type by `Int.cast`; the factors
of the Fourier matrix are powers of one element instead of values of `std::exp`.
-/
namespace Nda
variable {α : Type}

/-- test/ein_reduce.cpp:145 `sgn`. -/
def sgnOf (i : Int) : Int := if i = 0 then 0 else if i < 0 then -1 else 1

/-- test/ein_reduce.cpp:148-152 `epsilon(i0, is...)`. -/
def epsilonOf : Index → Int
  | [] => 1
  | i0 :: is => product (is.map fun i => sgnOf (i - i0)) * epsilonOf is

/-- README.md:292 `epsilon3`. -/
def epsilon3Of (i j k : Int) : Int := sgnOf (j - i) * sgnOf (k - i) * sgnOf (k - j)

/-- A callable that is called with three indices. -/
def fn3 (f : Int → Int → Int → α) : Index → α := fun i => f (i.getD 0 0) (i.getD 1 0) (i.getD 2 0)

/-- README.md:293, test/ein_reduce.cpp:167:
`ein<i, l>(crosses) += ein<i, j, k>(epsilon3) * ein<j, l>(xs) * ein<k, l>(ys)`, the right-hand side. -/
def crossExpr [Ring α] (x y : EinSrc α) (i j k l : Nat) : EinExpr α :=
  .binary (· * ·) (.binary (· * ·) (.op ⟨.fn (fn3 fun a b c => (epsilon3Of a b c : α)), [i, j, k]⟩) (.op ⟨x, [j, l]⟩))
    (.op ⟨y, [k, l]⟩)

/-- README.md:306-310, test/ein_reduce.cpp:299-300: `auto r = ein<k>(max_xy); ein_reduce(r = max(r, ein<i, j, k>(volume)))`. -/
def planeMax [LinearOrder α] (r : EinOp α) (v : EinOp α) (m : Mem α) : Option (Mem α) :=
  einReduce (fun _ y => y) r (.binary max (.op r) (.op v)) m

/-- README.md:318-320 `for_all_indices(W.shape(), [&](int j, int k) { W(j, k) = f(j, k); })`. -/
def assignAll (base : Int) (dims : List SDim) (f : Index → α) (m : Mem α) : Option (Mem α) := do
  let tr ← (values dims).forEachIndex
  pure (tr.foldl (fun m i => m.set (base + (values dims).flatOffset i) (f i)) m)

/-- README.md:315-325: the matrix `W(j, k) = w^(j*k)`, then `ein<j>(X) += ein<j, k>(W) * ein<k>(x)` into zeros. -/
def dft [DivisionRing α] (w : α) (W : Int) (Wd : List SDim) (x X : EinOp α) (j k : Nat) (m : Mem α) : Option (Mem α) := do
  let m ← assignAll W Wd (fun i => w ^ (i.getD 0 0 * i.getD 1 0)) m
  einReduce (· + ·) X (.binary (· * ·) (.op ⟨.arr (some W) Wd, [j, k]⟩) (.op x)) m

end Nda
