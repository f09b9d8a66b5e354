import Verif.Model.Resample
import Mathlib.Data.Rat.Cast.Defs
/-
Model of examples/resample/resample.h: the reconstruction kernels as they are computed, operation by operation, in
an arithmetic of `float`.

Simplification: every operation is one of `float` (no excess precision, no contraction to fused operations).
`sinc` and `lanczos` are not here: `std::sin` is not modelled.
-/
namespace Nda

/-- The operations on `float` that the kernels use. -/
structure KernelOps (F : Type) extends FloatOps F where
  /-- `std::abs`. -/
  abs : F → F
  neg : F → F
  lt : F → F → Bool
  le : F → F → Bool
  /-- A literal. -/
  lit : ℚ → F

variable {F : Type} (o : KernelOps F)

/-- resample.h:31 `box`. -/
def boxOp (s : F) : F := if o.le (o.abs s) (o.lit (1 / 2)) then o.lit 1 else o.lit 0

/-- resample.h:34 `linear`; `std::max(a, b)` is `a < b ? b : a`. -/
def linearOp (s : F) : F :=
  let b := o.sub (o.lit 1) (o.abs s)
  if o.lt (o.lit 0) b then b else o.lit 0

/-- resample.h:38-48 `quadratic_family`. -/
def quadraticFamilyOp (s r : F) : F :=
  let s := o.abs s
  let s2 := o.mul s s
  if o.lt s (o.lit (1 / 2)) then
    o.add (o.mul (o.mul (o.lit (-2)) r) s2) (o.mul (o.lit (1 / 2)) (o.add r (o.lit 1)))
  else if o.lt s (o.lit (3 / 2)) then
    o.add (o.add (o.mul r s2) (o.mul (o.sub (o.mul (o.lit (-2)) r) (o.lit (1 / 2))) s))
      (o.mul (o.lit (3 / 4)) (o.add r (o.ofIndex 1)))
  else o.ofIndex 0

/-- resample.h:50-62 `cubic_family`. -/
def cubicFamilyOp (s B C : F) : F :=
  let s := o.abs s
  let s2 := o.mul s s
  let s3 := o.mul s2 s
  if o.le s (o.lit 1) then
    o.add (o.add (o.mul (o.sub (o.sub (o.lit 2) (o.mul B (o.lit (3 / 2)))) C) s3)
      (o.mul (o.add (o.add (o.lit (-3)) (o.mul (o.lit 2) B)) C) s2)) (o.sub (o.lit 1) (o.div B (o.lit 3)))
  else if o.le s (o.lit 2) then
    o.add (o.add (o.add (o.mul (o.sub (o.div (o.neg B) (o.lit 6)) C) s3) (o.mul (o.add B (o.mul (o.lit 5) C)) s2))
      (o.mul (o.sub (o.mul (o.lit (-2)) B) (o.mul (o.lit 8) C)) s))
      (o.add (o.div (o.mul B (o.lit 4)) (o.lit 3)) (o.mul (o.lit 4) C))
  else o.lit 0

/-- resample.h:65 `interpolating_quadratic`. -/
def interpolatingQuadraticOp (s : F) : F := quadraticFamilyOp o s (o.lit 1)

/-- resample.h:68 `interpolating_cubic`. -/
def interpolatingCubicOp (s : F) : F := cubicFamilyOp o s (o.lit 0) (o.lit (1 / 2))

/-- resample.h:71 `quadratic_bspline`. -/
def quadraticBsplineOp (s : F) : F := quadraticFamilyOp o s (o.lit (1 / 2))

/-- resample.h:74 `cubic_bspline`. -/
def cubicBsplineOp (s : F) : F := cubicFamilyOp o s (o.lit 1) (o.lit 0)

end Nda
