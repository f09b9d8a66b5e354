import Verif.Model.Rational
import Verif.Model.Loops
/-
Model of examples/resample/resample.h: the construction of resampling kernels.

Simplifications: `float` is an abstract type with total operations (so the theorems hold for IEEE
arithmetic as well as for exact fields); `index_t` values are `Int`s except in `rational<index_t>`,
whose arithmetic is the checked 64-bit one of `Verif.Model.Rational`; a one-dimensional
`dense_array<T, 1>` is its interval together with the values at its indices (that index `i` of it is
the element `i - min` of its allocation is C01), access outside of the interval is `none`.
-/
namespace Nda

/-- The operations on `float` that are used. -/
structure FloatOps (F : Type) where
  zero : F
  one : F
  /-- Conversion of an `index_t`. -/
  ofIndex : Int → F
  add : F → F → F
  sub : F → F → F
  mul : F → F → F
  div : F → F → F
  /-- `std::min`. -/
  min : F → F → F
  /-- `x != 0.0f`. -/
  nonZero : F → Bool

/-- A `dense_array<T, 1>`. -/
structure Dense1 (T : Type) where
  dom : Interval
  data : Int → T

namespace Dense1
variable {T : Type}

/-- `a(i)`; `none`: out of bounds. -/
def get (a : Dense1 T) (i : Int) : Option T :=
  if a.dom.min ≤ i ∧ i ≤ a.dom.max then some (a.data i) else none

/-- `a(i) = v`; `none`: out of bounds. -/
def set (a : Dense1 T) (i : Int) (v : T) : Option (Dense1 T) :=
  if a.dom.min ≤ i ∧ i ≤ a.dom.max then some { a with data := fun j => if j = i then v else a.data j }
  else none

end Dense1

section
variable {F : Type} (o : FloatOps F)

/-- rational.h:119-122 `to_float`. -/
def Rational.toFloat (r : Rational) : F := o.div (o.ofIndex r.n.toInt) (o.ofIndex r.d.toInt)

/-- resample.h:106, 122: `(x + half) / rate - half`. -/
def kernelPosition (x : Int) (rate : Rational) : Option Rational := do
  let half ← Rational.mk2 1#64 2#64
  let a ← Rational.scalarAdd (BitVec.ofInt 64 x) half
  let b ← a.div rate
  b.sub half

/-- The variables of the loop of resample.h:130-141. -/
structure KernelScan (F : Type) where
  buffer : Dense1 F
  min : Int
  max : Int
  sum : F

/-- resample.h:134-140: one iteration. -/
def kernelScanStep (kernel : F → F) (inX scale : F) (st : KernelScan F) (rx : Int) :
    Option (KernelScan F) := do
  let k := kernel (o.mul (o.sub (o.ofIndex rx) inX) scale)
  let buffer ← st.buffer.set rx k
  if o.nonZero k then
    pure { buffer, sum := o.add st.sum k, min := imin st.min rx, max := imax st.max rx }
  else
    pure { st with buffer }

/-- resample.h:144-150: crop and normalize.  The constructor leaves the elements uninitialized
(modelled as the zero of the type). -/
def cropKernel (st : KernelScan F) : Option (Dense1 F) := do
  let extent := st.max - st.min + 1
  let kernelX : Dense1 F := ⟨⟨st.min, extent⟩, fun _ => o.zero⟩
  let is ← Interval.iterate kernelX.dom
  is.foldlM (fun (kx : Dense1 F) rx => do
    let b ← st.buffer.get rx
    kx.set rx (o.div b st.sum)) kernelX

/-- The assertion of resample.h:145.  (That of line 146 concerns the sum.) -/
def cropKernelAssert (st : KernelScan F) : Bool := decide (st.max - st.min + 1 > 0)

/-- resample.h:119-141: the scan for output position `x`, with the buffer left by earlier
iterations. -/
def kernelScan (kernel : F → F) (in_ : Interval) (rate : Rational) (scale : F) (buffer : Dense1 F)
    (x : Int) : Option (KernelScan F) := do
  let p ← kernelPosition x rate
  let inX := p.toFloat o
  let is ← in_.iterate
  is.foldlM (kernelScanStep o kernel inX scale) ⟨buffer, in_.max, in_.min, o.zero⟩

/-- resample.h:103-157 `build_kernels`. -/
def buildKernels (in_ out : Interval) (rate : Rational) (kernel : F → F) :
    Option (Dense1 (Dense1 F)) := do
  let kernels : Dense1 (Dense1 F) := ⟨out, fun _ => ⟨⟨0, 0⟩, fun _ => o.zero⟩⟩
  let buffer : Dense1 F := ⟨in_, fun _ => o.zero⟩
  let scale := o.min (rate.toFloat o) o.one
  let xs ← out.iterate
  let (_, kernels) ← xs.foldlM (fun (s : Dense1 F × Dense1 (Dense1 F)) x => do
    let st ← kernelScan o kernel in_ rate scale s.1 x
    let kx ← cropKernel o st
    let kernels ← s.2.set x kx
    pure (st.buffer, kernels)) (buffer, kernels)
  pure kernels

end
end Nda
