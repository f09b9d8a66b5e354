import Verif.Spec.Convolution
import Mathlib.Algebra.Order.BigOperators.Group.Finset
import Mathlib.Algebra.Order.Round
import Mathlib.Data.Int.Log
import Mathlib.Data.Rat.Floor
import Mathlib.Order.Interval.Finset.Defs
import Mathlib.Data.Int.Interval
/-
Specification vocabulary for rounding errors (C82): what is assumed of the arithmetic of a floating-point type,
and sums of products of the exact values of elements. Nothing here is about the code.
-/
namespace Nda.Spec
variable {F : Type}

/-- An arithmetic whose finite values `val` are rational numbers: as long as the exact result is at most `Ω` in
magnitude, sums and products of finite values are finite, sums have a relative error of at most `u`, and products
one of at most `u`, or an absolute error of at most `η` (underflow). IEEE 754 binary32, with rounding to nearest,
has `u = 2^-24`, `η = 2^-150` and `Ω = (2 - 2^-23) * 2^127`. -/
structure Rounds (o : ScalarOps F) (Finite : F → Prop) (val : F → ℚ) (u η Ω : ℚ) : Prop where
  unit : 0 ≤ u
  underflow : 0 ≤ η
  zero : Finite o.zero ∧ val o.zero = 0
  add : ∀ a b, Finite a → Finite b → |val a + val b| ≤ Ω →
    Finite (o.add a b) ∧ |val (o.add a b) - (val a + val b)| ≤ u * |val a + val b|
  mul : ∀ a b, Finite a → Finite b → |val a * val b| ≤ Ω →
    Finite (o.mul a b) ∧ |val (o.mul a b) - val a * val b| ≤ u * |val a * val b| + η
  lt : ∀ a b, Finite a → Finite b → (o.lt a b = true ↔ val a < val b)

/-- Bound of the error of a sum of `terms` rounded products, whose magnitudes add up to `size`, if at most `depth`
additions are applied to each of the products. -/
def productError (u η : ℚ) (terms depth : Nat) (size : ℚ) : ℚ :=
  ((1 + u) ^ (depth + 1) - 1) * size + terms * η * (1 + u) ^ depth

/-- The integers of an interval, as a set. -/
def spanOf (v : Interval) : Finset Int := Finset.Ico v.min (v.min + v.extent)

/-- `Σ_k A(i, k) * B(k, j)`, of exact values. -/
def exactProduct (val : F → ℚ) (A B : Image2) (a b : Int) (m : Int → F) (i j : Int) : ℚ :=
  ∑ k ∈ spanOf A.j.val.toInterval, val (m (elementAddress A a i k)) * val (m (elementAddress B b k j))

/-- `Σ_k |A(i, k)| * |B(k, j)|`, of exact values. -/
def productSize (val : F → ℚ) (A B : Image2) (a b : Int) (m : Int → F) (i j : Int) : ℚ :=
  ∑ k ∈ spanOf A.j.val.toInterval, |val (m (elementAddress A a i k))| * |val (m (elementAddress B b k j))|

/-- All elements of a matrix have finite values. -/
def FiniteMatrix (Finite : F → Prop) (A : Image2) (a : Int) (m : Int → F) : Prop :=
  ∀ i j, inDim A.i i → inDim A.j j → Finite (m (elementAddress A a i j))

/-- `C` is the product of `A` and `B` up to rounding: for each element that is too small to overflow, the error is
at most `productError`. -/
def IsRoundedProduct (Finite : F → Prop) (val : F → ℚ) (u η Ω : ℚ) (depth : Nat) (A B C : Image2) (a b c : Int)
    (m m' : Int → F) : Prop :=
  ∀ i j, inDim C.i i → inDim C.j j →
    productSize val A B a b m i j + productError u η A.j.val.extent.toNat depth (productSize val A B a b m i j) ≤ Ω →
    Finite (m' (elementAddress C c i j)) ∧
    |val (m' (elementAddress C c i j)) - exactProduct val A B a b m i j| ≤
      productError u η A.j.val.extent.toNat depth (productSize val A B a b m i j)

/-- The exact value of a convolution without its bias. -/
def exactConvolution (val : F → ℚ) (input filter : ArrayRef) (bi bf : Int) (m : Int → F) (co x y n : Int) : ℚ :=
  ∑ ci ∈ spanOf (indicesOf filter 3), ∑ dy ∈ spanOf (indicesOf filter 2), ∑ dx ∈ spanOf (indicesOf filter 1),
    val (m (addressOf filter bf [co, dx, dy, ci])) * val (m (addressOf input bi [ci, x + dx, y + dy, n]))

/-- The sum of the magnitudes of the terms of a convolution without its bias. -/
def convolutionSize (val : F → ℚ) (input filter : ArrayRef) (bi bf : Int) (m : Int → F) (co x y n : Int) : ℚ :=
  ∑ ci ∈ spanOf (indicesOf filter 3), ∑ dy ∈ spanOf (indicesOf filter 2), ∑ dx ∈ spanOf (indicesOf filter 1),
    |val (m (addressOf filter bf [co, dx, dy, ci]))| * |val (m (addressOf input bi [ci, x + dx, y + dy, n]))|

/-- The number of terms of a convolution. -/
def filterTaps (filter : ArrayRef) : Nat :=
  (indicesOf filter 3).extent.toNat * ((indicesOf filter 2).extent.toNat * (indicesOf filter 1).extent.toNat)

/-- The output of a layer up to rounding: for each element that is too small to overflow, the error is at most that
of the bias and that of the products. -/
def IsRoundedLayer (input filter bias output : ArrayRef) (bi bf bb bo : Int) (Finite : F → Prop) (val : F → ℚ) (u η Ω : ℚ)
    (m m' : Int → F) : Prop :=
  ∀ co x y n, InBox output.shape [co, x, y, n] →
    (1 + u) ^ filterTaps filter * |val (m (addressOf bias bb [co]))| +
      (convolutionSize val input filter bi bf m co x y n + productError u η (filterTaps filter) (filterTaps filter)
        (convolutionSize val input filter bi bf m co x y n)) ≤ Ω →
    Finite (m' (addressOf output bo [co, x, y, n])) ∧
    |val (m' (addressOf output bo [co, x, y, n])) -
      max (val (m (addressOf bias bb [co])) + exactConvolution val input filter bi bf m co x y n) 0| ≤
      ((1 + u) ^ filterTaps filter - 1) * |val (m (addressOf bias bb [co]))| +
        productError u η (filterTaps filter) (filterTaps filter)
          (convolutionSize val input filter bi bf m co x y n)

/-- A way of adding up products, as a compiler may choose with `-ffast-math`: any order, any association, and
products that are contracted with an addition. -/
inductive SumTree (α : Type) where
  | zero
  | term (k : α)
  | add (l r : SumTree α)
  | fma (k : α) (l : SumTree α)

/-- The products that are added up. -/
def SumTree.terms {α : Type} : SumTree α → List α
  | .zero => []
  | .term k => [k]
  | .add l r => l.terms ++ r.terms
  | .fma k l => k :: l.terms

/-- The largest number of additions on the way of a product to the result. -/
def SumTree.depth {α : Type} : SumTree α → Nat
  | .zero => 0
  | .term _ => 0
  | .add l r => max l.depth r.depth + 1
  | .fma _ l => l.depth + 1

/-- The sum of products `f k * g k`; `fma a b c` is `a * b + c`, rounded once. -/
def SumTree.eval {α : Type} (o : ScalarOps F) (fma : F → F → F → F) (f g : α → F) : SumTree α → F
  | .zero => o.zero
  | .term k => o.mul (f k) (g k)
  | .add l r => o.add (l.eval o fma f g) (r.eval o fma f g)
  | .fma k l => fma (f k) (g k) (l.eval o fma f g)

/-- `fma a b c` is `a * b + c`, rounded once. -/
def RoundsFma (fma : F → F → F → F) (Finite : F → Prop) (val : F → ℚ) (u η Ω : ℚ) : Prop :=
  ∀ a b c, Finite a → Finite b → Finite c → |val a * val b + val c| ≤ Ω →
    Finite (fma a b c) ∧ |val (fma a b c) - (val a * val b + val c)| ≤ u * |val a * val b + val c| + η

/-- The nearest number with `p` binary digits, of any exponent. -/
def nearest (p : Nat) (x : ℚ) : ℚ :=
  round (x / (2 : ℚ) ^ (Int.log 2 |x| + 1 - p)) * (2 : ℚ) ^ (Int.log 2 |x| + 1 - p)

/-- Floating-point arithmetic with `p` binary digits, and unbounded exponents. -/
def digitsOps (p : Nat) : ScalarOps ℚ :=
  ⟨0, fun a b => nearest p (a + b), fun a b => nearest p (a * b), fun a b => decide (a < b)⟩

/-- Fixed-point arithmetic with a resolution of `1/d`: values are multiples of `1/d`, products are truncated. -/
def fixedOps (d : Int) : ScalarOps Int := ⟨0, fun a b => a + b, fun a b => a * b / d, fun a b => decide (a < b)⟩

end Nda.Spec
