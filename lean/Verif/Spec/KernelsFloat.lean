import Verif.Model.KernelsFloat
import Verif.Model.Kernels
import Verif.Spec.RoundingResample
/-
Specification vocabulary for kernels in floating point (C91).
-/
namespace Nda.Spec

/-- IEEE 754 binary32 with comparisons, which are false if an argument is not a number. -/
def float32Kernel : KernelOps (Option ℚ) where
  toFloatOps := float32
  abs x := x.map fun a => |a|
  neg x := x.map fun a => -a
  lt | some a, some b => decide (a < b)
     | _, _ => false
  le | some a, some b => decide (a ≤ b)
     | _, _ => false
  lit q := finiteOr largestFloat (nearestBinary roundEven 24 (-149) q)

/-- The function `k` of binary32 numbers computes `K` up to `ε`, and is zero where `K` is, from `r` on. -/
structure Computes (k : Option ℚ → Option ℚ) (K : ℚ → ℚ) (r ε : ℚ) : Prop where
  float : ∀ s, IsFloat s → IsFloat (k s)
  error : ∀ s, IsFloat s → |(k s).getD 0 - K (s.getD 0)| ≤ ε
  far : ∀ s, IsFloat s → r < |s.getD 0| → k s = some 0

/-- The kernels made of polynomials in binary32, other than `box`, and in exact arithmetic. -/
inductive FloatKernel : (Option ℚ → Option ℚ) → (ℚ → ℚ) → Prop
  | linear : FloatKernel (linearOp float32Kernel) Kernel.linear
  | quadratic : FloatKernel (interpolatingQuadraticOp float32Kernel) Kernel.interpolatingQuadratic
  | cubic : FloatKernel (interpolatingCubicOp float32Kernel) Kernel.interpolatingCubic
  | quadraticBspline : FloatKernel (quadraticBsplineOp float32Kernel) Kernel.quadraticBspline
  | cubicBspline : FloatKernel (cubicBsplineOp float32Kernel) Kernel.cubicBspline

end Nda.Spec
