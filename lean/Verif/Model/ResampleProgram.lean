import Verif.Model.ResampleImage
import Verif.Model.Layouts
import Verif.Model.Tiling
import Verif.Model.Kernels
/-
Model of examples/resample/resample.cpp, the program that resizes an image.

ImageMagick itself is not modelled: an image is its size and its pixel cache, in which the four components of each
pixel follow each other.  The components have an integer type (`Magick::Quantum` of a build of ImageMagick without
HDRI).  They live in a memory of their own: an object of type `Quantum` and one of type `float` cannot overlap.
-/
namespace Nda

section
variable {α β : Type}

/-- array.h:2763-2772 `copy(array_ref<TSrc>, array_ref<TDst>)` for different element types: the assignment `dst = src`
(array.h:1421-1424) converts the element; `none`: the conversion is undefined. -/
def copyBetween (conv : α → Option β) (src dst : ArrayRef) (ms : Mem α) (md : Mem β) : Option (Mem β) :=
  (copyTrace src dst).foldlM (fun md p => do
    let v ← conv (ms p.1)
    pure (md.set p.2 v)) md

end

/-- The conversions and the comparison the program uses. -/
structure QuantumOps (F : Type) where
  /-- Conversion of a `Quantum` to `float`. -/
  ofQuantum : Int → F
  /-- Conversion of a `float` to `Quantum`: the fraction is discarded; `none`: undefined, as the result is not a
  value of the type. -/
  toQuantum : F → Option Int
  /-- `std::numeric_limits<Magick::Quantum>::max()`. -/
  maxQuantum : Int
  /-- `a < b`. -/
  lt : F → F → Bool

/-- resample.cpp:41-47, 49-55 `ref` and `cref`: the pixel cache of an image as a `chunky_image_ref<Quantum, 4>`. -/
def pixelRef (base w h : Int) : ArrayRef :=
  ArrayRef.make (some base) (shapeOfIntervals (chunkyImageShape 4 4) [⟨0, w⟩, ⟨0, h⟩, ⟨0, 4⟩])

/-- The dims of a `planar_image` with the given extents: the constructor of the array resolves the shape
(array.h:2282-2291). -/
def planarDims (w h c : Int) : List SDim :=
  let s := shapeOfIntervals planarImageShape [⟨0, w⟩, ⟨0, h⟩, ⟨0, c⟩]
  List.zipWith (fun (td : DimT × Dim) (r : Dim) => ⟨td.1, td.1.setStride td.2 r.stride⟩) (planarImageShape.zip s) s.resolve

/-- A `planar_image` allocated at `buf` (array.h:2282-2291). -/
def planarImage (w h c buf : Int) : Image3 :=
  match planarDims w h c with
  | [x, y, c] =>
    let s := values [x, y, c]
    ⟨if s.flatExtent > 0 then some (buf - s.flatMin) else none, x, y, c⟩
  | _ => ⟨none, ⟨⟨dynamic, dynamic, 1⟩, ⟨0, 0, 1⟩⟩, ⟨⟨dynamic, dynamic, dynamic⟩, ⟨0, 0, 1⟩⟩, ⟨⟨dynamic, dynamic, dynamic⟩, ⟨0, 0, 1⟩⟩⟩

/-- The image as an `array_ref`. -/
def Image3.ref (a : Image3) : ArrayRef := ⟨a.base, values a.dims⟩

section
variable {F : Type} (o : FloatOps F) (q : QuantumOps F)

/-- resample.cpp:57-64 `magick_to_array<float>`, which is `make_copy(chunky, array_shape, alloc)` (array.h:2804-2812):
the array is constructed, then the pixels are copied. -/
def magickToArray (cache w h : Int) (pixels : Mem Int) (buf : Int) (m : Mem F) : Option (Image3 × Mem F) := do
  let src := pixelRef cache w h
  let dst := planarImage w h 4 buf
  let m := constructImage o dst m
  let m ← copyBetween (fun v => some (q.ofQuantum v)) src dst.ref pixels m
  pure (dst, m)

/-- `std::max(a, b)`. -/
def floatMax (a b : F) : F := if q.lt a b then b else a

/-- resample.cpp:99-100: `std::max(std::min(i, max_quantum), 0.0f)`. -/
def clampQuantum (v : F) : F := floatMax q (o.min v (q.ofQuantum q.maxQuantum)) o.zero

/-- resample.cpp:66-72 `array_to_magick`: the pixel cache of the result is at `cache`. -/
def arrayToMagick (img : Image3) (m : Mem F) (cache : Int) (pixels : Mem Int) : Option (Mem Int) :=
  copyBetween q.toQuantum img.ref (pixelRef cache img.x.val.extent img.y.val.extent) m pixels

/-- resample.cpp:92-102, the part of `main` from reading the image on: an image of size `w` by `h` whose pixel cache is
at `cacheIn` becomes one of size `newW` by `newH` whose pixel cache is at `cacheOut`.  The input and the output array
are allocated at `bi` and `bo`. -/
def resizeImage (debug : Bool) (w h newW newH : Int) (kernel : F → F) (cacheIn cacheOut bi bo : Int)
    (ax ay : Int → Int) (buf : Interval → Nat → Int) (pixels : Mem Int) (m : Mem F) : Option (Mem Int) := do
  let (input, m) ← magickToArray o q cacheIn w h pixels bi m
  let output := planarImage newW newH 4 bo
  let m := constructImage o output m
  let rateX ← Rational.mk2 (BitVec.ofInt 64 output.x.val.extent) (BitVec.ofInt 64 input.x.val.extent)
  let rateY ← Rational.mk2 (BitVec.ofInt 64 output.y.val.extent) (BitVec.ofInt 64 input.y.val.extent)
  let m ← resample o debug input output rateX rateY kernel ax ay buf m
  let m := updateValues output.ref (clampQuantum o q) m
  arrayToMagick q output m cacheOut pixels

end

/-- resample.cpp:24-38 `parse_kernel`; `none`: the function object is empty.  The Lanczos kernel with four lobes is a
parameter. -/
def parseKernel {K : Type} [Field K] [LinearOrder K] (lanczos4 : K → K) (name : String) : Option (K → K) :=
  if name = "box" then some Kernel.box
  else if name = "linear" then some Kernel.linear
  else if name = "quadratic" then some Kernel.interpolatingQuadratic
  else if name = "cubic" then some Kernel.interpolatingCubic
  else if name = "lanczos" then some lanczos4
  else none

end Nda
