import Verif.Model.ResampleProgram
import Verif.Model.ExamplePrograms
/-
Model of examples/resample/benchmark.cpp, the program that measures how long `resample` takes.

`none`: undefined behaviour, a failing assertion, a null pointer that is used, or an overflow in `benchmark`, as in the
models of `resample` (C51) and `benchmark` (C93).  Each call of `resample` allocates its kernels and temporaries at
addresses of its own; calls are counted.  The arguments are given by the values that `std::atoi` makes of them, what is
printed is given by the names and the numbers.  The Lanczos kernel is a parameter: its `std::sin` is not modelled in
floating point.
-/
namespace Nda

section
variable {F D : Type} (o : KernelOps F) (d : DoubleOps D)

/-- benchmark.cpp:25-31 `benchmarks`. -/
def benchmarkTable (lanczos3 : F → F) : List (String × (F → F)) :=
  [("box", boxOp o), ("linear", linearOp o), ("quadratic", interpolatingQuadraticOp o), ("cubic", interpolatingCubicOp o),
    ("lanczos3", lanczos3)]

/-- Where each call of `resample` allocates its kernels and temporaries. -/
structure CallAddresses where
  ax : Nat → Int → Int
  ay : Nat → Int → Int
  buf : Nat → Interval → Nat → Int

/-- benchmark.cpp:45, the lambda: call `s.1` of `resample`. -/
def resampleCall (debug : Bool) (input output : Image3) (rateX rateY : Rational) (at_ : CallAddresses) (kernel : F → F)
    (s : Nat × Mem F) : Option (Nat × Mem F) := do
  let m ← resample o.toFloatOps debug input output rateX rateY kernel (at_.ax s.1) (at_.ay s.1) (at_.buf s.1) s.2
  pure (s.1 + 1, m)

/-- benchmark.cpp:43-47, the loop over the kernels: `benchmark`, then the name and the time in milliseconds are printed.
`clock j` is the clock of kernel `j`. -/
def benchmarkRows {σ : Type} (op : (F → F) → σ → Option σ) :
    List (String × (F → F)) → (Nat → Nat → Int) → σ → Option (List (String × D) × σ)
  | [], _, s => some ([], s)
  | e :: rest, clock, s => do
    let (t, s) ← benchmark d (op e.2) (clock 0) s
    let (rows, s) ← benchmarkRows op rest (fun j => clock (j + 1)) s
    pure ((e.1, d.mul t (d.lit 1000)) :: rows, s)

/-- benchmark.cpp:33-48 `run_benchmarks<planar_image<float>, 4>`: the rows that are printed, and the memory at the end. -/
def runBenchmarks (debug : Bool) (table : List (String × (F → F))) (inputWidth inputHeight outputWidth outputHeight : Int)
    (bi bo : Int) (at_ : CallAddresses) (clock : Nat → Nat → Int) (m : Mem F) : Option (List (String × D) × Mem F) := do
  let input := planarImage inputWidth inputHeight 4 bi
  let m := constructImage o.toFloatOps input m
  let output := planarImage outputWidth outputHeight 4 bo
  let m := constructImage o.toFloatOps output m
  let rateX ← Rational.mk2 (BitVec.ofInt 64 output.x.val.extent) (BitVec.ofInt 64 input.x.val.extent)
  let rateY ← Rational.mk2 (BitVec.ofInt 64 output.y.val.extent) (BitVec.ofInt 64 input.y.val.extent)
  let (rows, s) ← benchmarkRows d (resampleCall o debug input output rateX rateY at_) table clock (0, m)
  pure (rows, s.2)

/-- benchmark.cpp:50-65 `main`: the value returned and what is printed (not the usage). -/
def resampleBenchmarkMain (debug : Bool) (table : List (String × (F → F))) (args : List Int) (bi bo : Int) (at_ : CallAddresses)
    (clock : Nat → Nat → Int) (m : Mem F) : Option (Int × List (String × D)) :=
  match args with
  | w :: h :: newW :: newH :: _ => do
    let r ← runBenchmarks o d debug table w h newW newH bi bo at_ clock m
    pure (0, r.1)
  | _ => some (-1, [])

end

end Nda
