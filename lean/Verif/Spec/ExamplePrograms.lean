import Verif.Model.ExamplePrograms
import Verif.Spec.KernelsFloat
/-
Specification vocabulary for the example programs (C93): IEEE 754 numbers with infinities and NaN, and how the arrays
of the programs are placed in memory.
-/
namespace Nda.Spec

/-- A floating-point number. Zeros have no sign. -/
inductive Ieee where
  | num (x : ℚ)
  | inf (negative : Bool)
  | nan
deriving DecidableEq

namespace Ieee

/-- The number nearest to `x`, or an infinity. -/
def rounded (rnd : ℚ → Int) (p : Nat) (emin : Int) (Ω x : ℚ) : Ieee :=
  if |nearestBinary rnd p emin x| ≤ Ω then num (nearestBinary rnd p emin x) else inf (decide (x < 0))

def neg : Ieee → Ieee
  | num x => num (-x)
  | inf s => inf (!s)
  | nan => nan

def abs : Ieee → Ieee
  | num x => num |x|
  | inf _ => inf false
  | nan => nan

def lt : Ieee → Ieee → Bool
  | num a, num b => decide (a < b)
  | num _, inf s => !s
  | inf s, num _ => s
  | inf s, inf t => s && !t
  | _, _ => false

def le : Ieee → Ieee → Bool
  | num a, num b => decide (a ≤ b)
  | num _, inf s => !s
  | inf s, num _ => s
  | inf s, inf t => s || !t
  | _, _ => false

/-- The sum, where sums of numbers are `round`ed. -/
def add (round : ℚ → Ieee) : Ieee → Ieee → Ieee
  | num a, num b => round (a + b)
  | num _, inf s => inf s
  | inf s, num _ => inf s
  | inf s, inf t => if s = t then inf s else nan
  | _, _ => nan

/-- The sign of a product with an infinity; `none` if the other factor is zero or NaN. -/
def negative : Ieee → Option Bool
  | num x => if x = 0 then none else some (decide (x < 0))
  | inf s => some s
  | nan => none

def mul (round : ℚ → Ieee) : Ieee → Ieee → Ieee
  | num a, num b => round (a * b)
  | a, b => match a.negative, b.negative with
    | some s, some t => inf (s != t)
    | _, _ => nan

/-- The quotient; that of a positive number and zero is a positive infinity. -/
def div (round : ℚ → Ieee) : Ieee → Ieee → Ieee
  | num a, num b => if b = 0 then (if a = 0 then nan else inf (decide (a < 0))) else round (a / b)
  | num _, inf _ => num 0
  | inf s, num b => inf (s != decide (b < 0))
  | _, _ => nan

/-- The exact value of a finite number. -/
def value : Ieee → ℚ
  | num x => x
  | _ => 0

/-- The finite number, if it is one. -/
def finite : Ieee → Option ℚ
  | num x => some x
  | _ => none

end Ieee

/-- The arithmetic of a binary format. -/
def ieeeOps (rnd : ℚ → Int) (p : Nat) (emin : Int) (Ω : ℚ) : KernelOps Ieee where
  zero := .num 0
  one := .num 1
  ofIndex i := Ieee.rounded rnd p emin Ω i
  add := Ieee.add (Ieee.rounded rnd p emin Ω)
  sub a b := Ieee.add (Ieee.rounded rnd p emin Ω) a b.neg
  mul := Ieee.mul (Ieee.rounded rnd p emin Ω)
  div := Ieee.div (Ieee.rounded rnd p emin Ω)
  min a b := if b.lt a then b else a
  nonZero a := decide (a ≠ .num 0)
  abs := Ieee.abs
  neg := Ieee.neg
  lt := Ieee.lt
  le := Ieee.le
  lit := Ieee.rounded rnd p emin Ω

/-- `float`: IEEE 754 binary32. -/
def ieeeFloat : KernelOps Ieee := ieeeOps roundEven 24 (-149) largestFloat

/-- The largest number of binary64. -/
def largestDouble : ℚ := ((2 ^ 53 - 1 : Int) : ℚ) * (2 : ℚ) ^ (971 : Int)

/-- `double`: IEEE 754 binary64. -/
def ieeeDouble : DoubleOps Ieee where
  toKernelOps := ieeeOps roundEven 53 (-1074) largestDouble
  ceil | .num x => some ⌈x⌉
       | _ => none

/-- A finite binary32 number between 0 and 1. -/
def UnitFloat (x : Ieee) : Prop := IsFloat x.finite ∧ 0 ≤ x.value ∧ x.value ≤ 1

/-- Two blocks of memory of `m` and `n` elements have none in common. -/
def BlocksApart (p m q n : Int) : Prop := p + m ≤ q ∨ q + n ≤ p

/-- The arrays of the matrix program do not overlap, nor do the local buffers overlap any of them. Arrays and buffers
of different versions may. -/
structure MatrixMemory (run : MatrixRun) (M K N : Int) : Prop where
  ab : BlocksApart run.a (M * K) run.b (K * N)
  ar : BlocksApart run.a (M * K) run.ref (M * N)
  br : BlocksApart run.b (K * N) run.ref (M * N)
  ac : ∀ t, BlocksApart run.a (M * K) (run.c t) (M * N)
  bc : ∀ t, BlocksApart run.b (K * N) (run.c t) (M * N)
  rc : ∀ t, BlocksApart run.ref (M * N) (run.c t) (M * N)
  aBuf : ∀ t, BlocksApart run.a (M * K) (run.buf t) 96
  bBuf : ∀ t, BlocksApart run.b (K * N) (run.buf t) 96
  rBuf : ∀ t, BlocksApart run.ref (M * N) (run.buf t) 96
  cBuf : ∀ t, BlocksApart (run.c t) (M * N) (run.buf t) 96

/-- The outputs of the convolution program do not overlap any other array. The inputs may overlap each other. -/
structure ConvolutionMemory (run : ConvolutionRun) (N CI CO W H : Int) : Prop where
  inputNaive : BlocksApart run.input (CI * (W + 2) * (H + 2) * N) run.naive (CO * W * H * N)
  filterNaive : BlocksApart run.filter (CO * 3 * 3 * CI) run.naive (CO * W * H * N)
  biasNaive : BlocksApart run.bias CO run.naive (CO * W * H * N)
  inputTiled : BlocksApart run.input (CI * (W + 2) * (H + 2) * N) run.tiled (CO * W * H * N)
  filterTiled : BlocksApart run.filter (CO * 3 * 3 * CI) run.tiled (CO * W * H * N)
  biasTiled : BlocksApart run.bias CO run.tiled (CO * W * H * N)
  outputs : BlocksApart run.naive (CO * W * H * N) run.tiled (CO * W * H * N)

/-- The numbers of nanoseconds that the ten trials of `benchmark` may take: any number but zero that fits `int64_t`. -/
def Measured (clock : Nat → Int) : Prop := ∀ t, t < 10 → clock t ≠ 0 ∧ |clock t| ≤ 9223372036854775807

end Nda.Spec
