import Verif.Model.Convolution
import Verif.Model.KernelsFloat
import Verif.Model.Layouts
import Mathlib.Algebra.Order.Floor.Ring
/-
Model of the programs examples/linear_algebra/matrix.cpp and examples/linear_algebra/conv2d_relu.cpp, and of
examples/benchmark.h: the inputs are generated, each version is run by `benchmark`, and the results are compared.

`none`: an assertion fails, an element out of the range of a view is used, a null pointer is dereferenced, a loop
does not end, an `int` or a `long` overflows, or a `double` that has no value in `long` is converted.
Simplifications: allocations succeed, and are given by their addresses; the initial zeros of arrays are not
modelled, memory is arbitrary; the random numbers are a sequence of values, the times measured are a sequence of
numbers of nanoseconds; `long` has 64 bits; times and rates are not printed; the version that calls a BLAS library is
not modelled; values are generated in the order of the generic loops; every operation is one of `float` or `double`
(no excess precision, no contraction, no reassociation).
-/
namespace Nda

/-- `long`, 64 bits. -/
def longValue (x : Int) : Option Int := if -9223372036854775808 ≤ x ∧ x ≤ 9223372036854775807 then some x else none

/-- `op(); ... op();`, `n` times. -/
def repeatOp {σ : Type} (op : σ → Option σ) : Nat → σ → Option σ
  | 0, s => some s
  | n + 1, s => do repeatOp op n (← op s)

/-- The operations on `double` that `benchmark` uses: those on `float` that the kernels use, and a conversion of
`std::ceil(x)` to an integer if `x` is finite. -/
structure DoubleOps (D : Type) extends KernelOps D where
  ceil : D → Option Int

section
variable {D σ : Type} (d : DoubleOps D)

/-- benchmark.h:33-35 `for (int j = 0; j < iterations; j++) { op(); }`. -/
def benchmarkTrial (op : σ → Option σ) (iterations : Int) (s : σ) : Option σ :=
  if iterations ≤ 2147483647 then repeatOp op iterations.toNat s else none

/-- benchmark.h:37-38 `duration_cast<nanoseconds>(t2 - t1).count() / (iterations * 1e9)`. -/
def timePerIteration (nanoseconds iterations : Int) : D :=
  d.div (d.ofIndex nanoseconds) (d.mul (d.ofIndex iterations) (d.lit 1000000000))

/-- benchmark.h:41-42: the number of iterations of the next trial. -/
def nextIterations (time : D) (iterations : Int) : Option Int := do
  let next ← d.ceil (d.div (d.mul (d.lit 1) (d.lit 2)) time)
  let next ← longValue next
  let most ← longValue (iterations * 10)
  pure (min (max next iterations) most)

/-- benchmark.h:31-43: the loop over `trials`, of which the given number is left. `clock t` is the time that trial `t`
takes. -/
def benchmarkLoop (op : σ → Option σ) (clock : Nat → Int) : Nat → Nat → Int → D → σ → Option (D × σ)
  | 0, _, _, time, s => some (time, s)
  | left + 1, trial, iterations, _, s => do
    let s ← benchmarkTrial op iterations s
    let time := timePerIteration d (clock trial) iterations
    if d.lt (d.lit 1) (d.mul time (d.ofIndex iterations)) then some (time, s) else do
      let iterations ← nextIterations d time iterations
      benchmarkLoop op clock left (trial + 1) iterations time s

/-- benchmark.h:24-45 `benchmark`. -/
def benchmark (op : σ → Option σ) (clock : Nat → Int) (s : σ) : Option (D × σ) :=
  benchmarkLoop d op clock 10 0 1 (d.lit 0) s

end

section
variable {F D : Type} (o : KernelOps F) (d : DoubleOps D)

/-- The operations that matrix products and convolutions use. -/
def KernelOps.scalar : ScalarOps F := ⟨o.zero, o.add, o.mul, o.lt⟩

/-- matrix.cpp:342, conv2d_relu.cpp:100 `relative_error`. -/
def relativeError (a b : F) : F := o.div (o.abs (o.sub a b)) (if o.lt a b then b else a)

/-- matrix.cpp:392, conv2d_relu.cpp:134 `relative_error(a, b) > tolerance`. -/
def exceeds (tolerance : ℚ) (a b : F) : Bool := o.lt (o.lit tolerance) (relativeError o a b)

/-- matrix.cpp:349, 350, 360, 383 `matrix<float> A({rows, cols})`, allocated at `p`: matrix.h:30-36, array.h:2371-2374.
-/
def matrixAt (p rows cols : Int) : Image2 :=
  match (Shape.resolve (shapeOfIntervals (matrixShape dynamic dynamic) [⟨0, rows⟩, ⟨0, cols⟩])) with
  | [i, j] => ⟨some (p - Shape.flatMin [i, j]), ⟨⟨dynamic, dynamic, dynamic⟩, i⟩, ⟨⟨dynamic, dynamic, 1⟩, j⟩⟩
  | _ => ⟨none, ⟨⟨dynamic, dynamic, dynamic⟩, ⟨0, 0, 0⟩⟩, ⟨⟨dynamic, dynamic, 1⟩, ⟨0, 0, 1⟩⟩⟩

/-- matrix.cpp:355-358, conv2d_relu.cpp:116-120 `generate(a, [&]() { return uniform(rng); })`; `n` numbers were
generated before. -/
def generateRandom (a : ArrayRef) (random : Nat → F) (n : Nat) (m : Mem F) : Nat × Mem F :=
  generate a (fun n => (random n, n + 1)) (n, m)

/-- matrix.cpp:367-380: the table of versions. `buf` is the address of the local buffer. -/
def matrixVersions (debug : Bool) : List (Int → Image2 → Image2 → Image2 → Mem F → Option (Mem F)) :=
  [fun _ => multiplyReduceCols o.scalar,
   fun _ => multiplyEinReduceCols o.scalar debug,
   fun _ => multiplyReduceRows o.scalar,
   fun _ => multiplyEinReduceRows o.scalar debug,
   fun _ => multiplyReduceMatrix o.scalar,
   fun _ => multiplyEinReduceMatrix o.scalar debug,
   fun buf => multiplyReduceTiles o.scalar debug 4 24 buf,
   fun buf => multiplyEinReduceTiles o.scalar debug 4 24 buf,
   fun buf => multiplyReduceTilesZOrder o.scalar debug 4 24 256 buf]

/-- matrix.cpp:388-398: whether no element of `C` is different from that of `c_ref`. -/
def matrixAgrees (rows cols : Int) (ref C : Image2) (m : Mem F) : Option Bool :=
  forRange ⟨0, rows⟩ (fun ok i =>
    forRange ⟨0, cols⟩ (fun ok j => do
      let x ← ref.at_ i j
      let y ← C.at_ i j
      pure (ok && !exceeds o (1 / 10000) (m x) (m y))) ok) true

/-- Where the arrays of the program are: `A`, `B`, `c_ref`, and `C` and the local buffer of each version; and the
times that the trials of each version take. -/
structure MatrixRun where
  a : Int
  b : Int
  ref : Int
  c : Nat → Int
  buf : Nat → Int
  clock : Nat → Nat → Int

/-- matrix.cpp:381-399: the loop over the versions, from version `t` on. The exit status is 0 or -1. -/
def runVersions (run : MatrixRun) (A B ref : Image2) (M N : Int) :
    List (Int → Image2 → Image2 → Image2 → Mem F → Option (Mem F)) → Nat → Mem F → Option (Int × Mem F)
  | [], _, m => some (0, m)
  | fn :: l, t, m => do
    let C := matrixAt (run.c t) M N
    let (_, m) ← benchmark d (fn (run.buf t) A B C) (run.clock t) m
    if ← matrixAgrees o M N ref C m then runVersions run A B ref M N l (t + 1) m else some (-1, m)

/-- matrix.cpp:344-401 `main`, for matrices of size `M x K` and `K x N`. -/
def matrixProgramOf (M K N : Int) (debug : Bool) (random : Nat → F) (run : MatrixRun) (m : Mem F) :
    Option (Int × Mem F) := do
  let A := matrixAt run.a M K
  let B := matrixAt run.b K N
  let (n, m) := generateRandom ⟨A.base, values A.dims⟩ random 0 m
  let (_, m) := generateRandom ⟨B.base, values B.dims⟩ random n m
  let ref := matrixAt run.ref M N
  let m ← multiplyRef o.scalar run.a run.b run.ref M K N m
  runVersions o d run A B ref M N (matrixVersions o debug) 0 m

/-- matrix.cpp:346-348: the sizes of the program. -/
def matrixProgram (debug : Bool) (random : Nat → F) (run : MatrixRun) (m : Mem F) : Option (Int × Mem F) :=
  matrixProgramOf o d 384 1536 384 debug random run m

/-- conv2d_relu.cpp:96-98 `tensor_shape<X, Y, Z, W>`, allocated at `p`. -/
def tensorAt (p x y z w : Int) : ArrayRef := ⟨some p, [⟨0, x, 1⟩, ⟨0, y, x⟩, ⟨0, z, x * y⟩, ⟨0, w, x * y * z⟩]⟩

/-- conv2d_relu.cpp:111 `shape<dense_dim<0, n>>`, allocated at `p`. -/
def vectorAt (p n : Int) : ArrayRef := ⟨some p, [⟨0, n, 1⟩]⟩

/-- Where the arrays of the program are, and the times that the trials of both versions take. -/
structure ConvolutionRun where
  input : Int
  filter : Int
  bias : Int
  naive : Int
  tiled : Int
  naiveClock : Nat → Int
  tiledClock : Nat → Int

/-- conv2d_relu.cpp:132-138: the indices that are reported as different. -/
def convolutionReports (naive tiled : ArrayRef) (m : Mem F) : Option (List Index) := do
  let l ← naive.shape.forEachIndex
  l.foldlM (fun reported i => do
    let x ← naive.element i
    let y ← tiled.element i
    pure (if exceeds o (1 / 100000) (m x) (m y) then reported ++ [i] else reported)) []

/-- conv2d_relu.cpp:102-141 `main`, for sizes `N`, `CI`, `CO`, `W` and `H`: what is reported. -/
def convolutionProgramOf (N CI CO W H : Int) (debug : Bool) (random : Nat → F) (run : ConvolutionRun) (m : Mem F) :
    Option (List Index × Mem F) := do
  let input := tensorAt run.input CI (W + 2) (H + 2) N
  let filter := tensorAt run.filter CO 3 3 CI
  let bias := vectorAt run.bias CO
  let (n, m) := generateRandom input random 0 m
  let (n, m) := generateRandom filter random n m
  let (_, m) := generateRandom bias random n m
  let naive := tensorAt run.naive CO W H N
  let (_, m) ← benchmark d (convNaive o.scalar input filter bias naive) run.naiveClock m
  let tiled := tensorAt run.tiled CO W H N
  let (_, m) ← benchmark d (convTiled o.scalar debug 4 24 input filter bias tiled) run.tiledClock m
  let reported ← convolutionReports o naive tiled m
  pure (reported, m)

/-- conv2d_relu.cpp:103-107: the sizes of the program. -/
def convolutionProgram (debug : Bool) (random : Nat → F) (run : ConvolutionRun) (m : Mem F) :
    Option (List Index × Mem F) :=
  convolutionProgramOf o d 5 128 128 100 80 debug random run m

end
end Nda
