import Verif.Model.ResampleImage
import Verif.Spec.Resample
import Verif.Spec.Static
/-
Specification vocabulary for resampling images (C51).
-/
namespace Nda.Spec
variable {F : Type}

/-- The indices of a dim. -/
def inRangeOf (d : SDim) (i : Int) : Prop := d.val.min ≤ i ∧ i < d.val.min + d.val.extent

/-- The address of pixel `(x, y, c)` of an image whose base is `b`. -/
def pixelAddress (a : Image3) (b x y c : Int) : Int :=
  b + (x - a.x.val.min) * a.x.val.stride + (y - a.y.val.min) * a.y.val.stride +
    (c - a.c.val.min) * a.c.val.stride

/-- `p` is the address of a pixel. -/
def PixelOf (a : Image3) (b p : Int) : Prop :=
  ∃ x y c, inRangeOf a.x x ∧ inRangeOf a.y y ∧ inRangeOf a.c c ∧ p = pixelAddress a b x y c

/-- A dim as a program can have it: its values agree with its type; it has at least one index. -/
def ProperDim (d : SDim) : Prop := Fits d.ty d.val ∧ 0 < d.val.extent

/-- The weighted sum `Σ f(r) k(r)` over the indices of a kernel, added up in ascending order. -/
def kernelSum (o : FloatOps F) (k : Dense1 F) (f : Int → F) : F :=
  ((List.range k.dom.extent.toNat).map fun j : Nat => k.dom.min + (j : Int)).foldl
    (fun s r => o.add s (o.mul (f r) (k.data r))) o.zero

/-- Value `r` of the kernel for position `x` exists. -/
def KernelIndex (ks : Dense1 (Dense1 F)) (x r : Int) : Prop :=
  InInterval ks.dom x ∧ InInterval (ks.data x).dom r

/-- Its address, when the kernel for position `x` is at `addr x`. -/
def kernelAddress (ks : Dense1 (Dense1 F)) (addr : Int → Int) (x r : Int) : Int :=
  addr x + (r - (ks.data x).dom.min)

/-- `p` is the address of a value of a kernel. -/
def KernelCell (ks : Dense1 (Dense1 F)) (addr : Int → Int) (p : Int) : Prop :=
  ∃ x r, KernelIndex ks x r ∧ p = kernelAddress ks addr x r

/-- The number of elements of the temporary images. -/
def tempSize (in_ out : Image3) (n : Nat) : Int :=
  if n = 2 then 64 * out.x.val.extent * out.c.val.extent
  else 64 * in_.x.val.extent * out.c.val.extent

/-- `p` is an address in temporary `n` of strip `yo`. -/
def TempCell (in_ out : Image3) (buf : Interval → Nat → Int) (yo : Interval) (n : Nat) (p : Int) : Prop :=
  buf yo n ≤ p ∧ p < buf yo n + tempSize in_ out n

/-- The objects of the program do not overlap: distinct pixels of the output and distinct values of
kernels have distinct addresses, and none of input, output, kernels and the three temporaries that
exist at a time share an address. -/
structure SeparateObjects (in_ out : Image3) (bi bo : Int) (kx ky : Dense1 (Dense1 F)) (ax ay : Int → Int)
    (buf : Interval → Nat → Int) : Prop where
  out_injective : ∀ x y c x' y' c', inRangeOf out.x x → inRangeOf out.y y → inRangeOf out.c c →
    inRangeOf out.x x' → inRangeOf out.y y' → inRangeOf out.c c' →
    pixelAddress out bo x y c = pixelAddress out bo x' y' c' → x = x' ∧ y = y' ∧ c = c'
  kx_injective : ∀ x r x' r', KernelIndex kx x r → KernelIndex kx x' r' →
    kernelAddress kx ax x r = kernelAddress kx ax x' r' → x = x' ∧ r = r'
  ky_injective : ∀ x r x' r', KernelIndex ky x r → KernelIndex ky x' r' →
    kernelAddress ky ay x r = kernelAddress ky ay x' r' → x = x' ∧ r = r'
  kx_ky : ∀ p, KernelCell kx ax p → ¬ KernelCell ky ay p
  in_out : ∀ p, PixelOf in_ bi p → ¬ PixelOf out bo p
  in_k : ∀ p, PixelOf in_ bi p → ¬ KernelCell kx ax p ∧ ¬ KernelCell ky ay p
  out_k : ∀ p, PixelOf out bo p → ¬ KernelCell kx ax p ∧ ¬ KernelCell ky ay p
  temp : ∀ yo n p, n < 3 → TempCell in_ out buf yo n p →
    ¬ PixelOf in_ bi p ∧ ¬ PixelOf out bo p ∧ ¬ KernelCell kx ax p ∧ ¬ KernelCell ky ay p
  temps : ∀ yo n k p, n < 3 → k < 3 → n ≠ k → TempCell in_ out buf yo n p → ¬ TempCell in_ out buf yo k p

/-- For every output position some kernel value on the input interval is non-zero. -/
def KernelsCover (o : FloatOps F) (in_ out : SDim) (rate : Rational) (kernel : F → F) : Prop :=
  ∀ x, inRangeOf out x → ∃ p, kernelPosition x rate = some p ∧
    ∃ i, inRangeOf in_ i ∧ o.nonZero (weight o kernel rate p i) = true

end Nda.Spec
