import Mathlib.Algebra.Order.Field.Basic
import Mathlib.Analysis.SpecialFunctions.Trigonometric.Basic
/-
Model of examples/resample/resample.h: the reconstruction kernels.

Simplification: exact arithmetic instead of `float`.  The polynomial kernels are over any ordered field
(`ℚ`, `ℝ`), `sinc` and `lanczos` over the reals; `M_PI` is π and `1e-6f` is 1/1000000.
-/
namespace Nda.Kernel

section
variable {K : Type} [Field K] [LinearOrder K]

/-- resample.h:31 `box`. -/
def box (s : K) : K := if |s| ≤ 1 / 2 then 1 else 0

/-- resample.h:34 `linear`; `std::max(a, b)` is `a < b ? b : a`. -/
def linear (s : K) : K := if 0 < 1 - |s| then 1 - |s| else 0

/-- resample.h:38-48 `quadratic_family`. -/
def quadraticFamily (s r : K) : K :=
  let s := |s|
  let s2 := s * s
  if s < 1 / 2 then -2 * r * s2 + 1 / 2 * (r + 1)
  else if s < 3 / 2 then r * s2 + (-2 * r - 1 / 2) * s + 3 / 4 * (r + 1)
  else 0

/-- resample.h:50-62 `cubic_family`. -/
def cubicFamily (s B C : K) : K :=
  let s := |s|
  let s2 := s * s
  let s3 := s2 * s
  if s ≤ 1 then (2 - B * (3 / 2) - C) * s3 + (-3 + 2 * B + C) * s2 + (1 - B / 3)
  else if s ≤ 2 then
    (-B / 6 - C) * s3 + (B + 5 * C) * s2 + (-2 * B - 8 * C) * s + (B * 4 / 3 + 4 * C)
  else 0

/-- resample.h:65 `interpolating_quadratic`. -/
def interpolatingQuadratic (s : K) : K := quadraticFamily s 1

/-- resample.h:68 `interpolating_cubic`. -/
def interpolatingCubic (s : K) : K := cubicFamily s 0 (1 / 2)

/-- resample.h:71 `quadratic_bspline`. -/
def quadraticBspline (s : K) : K := quadraticFamily s (1 / 2)

/-- resample.h:74 `cubic_bspline`. -/
def cubicBspline (s : K) : K := cubicFamily s 1 0

end

/-- resample.h:76-79 `sinc`. -/
noncomputable def sinc (s : ℝ) : ℝ :=
  let s := s * Real.pi
  if |s| > 1 / 1000000 then Real.sin s / s else 1

/-- resample.h:82-92 `lanczos`. -/
noncomputable def lanczos (s : ℝ) (sideLobes : Int) : ℝ :=
  if |s| ≤ (sideLobes : ℝ) then sinc s * sinc (s / (sideLobes : ℝ)) else 0

end Nda.Kernel
