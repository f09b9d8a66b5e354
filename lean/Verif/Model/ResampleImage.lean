import Verif.Model.Resample
import Verif.Model.Ein
import Verif.Model.Split
/-
Model of examples/resample/resample.h: `resample_y` and `resample`.

All values live in one memory: the input, the output, the values of the kernels and the temporary
images.  Where the allocator puts the kernels and temporaries is a parameter of the model.
Simplifications: one value type `F` for `TIn`, `TOut` and `float`; the release of the temporaries is not
modelled; the assertions of `build_kernels` are those of `Verif.Model.Resample`.
-/
namespace Nda

/-- An `array_ref` of rank 3. -/
structure Image3 where
  base : Option Int
  x : SDim
  y : SDim
  c : SDim

namespace Image3

/-- The dims of the shape. -/
def dims (a : Image3) : List SDim := [a.x, a.y, a.c]

/-- array.h:1997-2004, 2096-2099 `a(x, y, c)` for intervals or dims `x`, `y` and `c`. -/
def crop (a : Image3) (x y c : SDim) : Image3 :=
  ⟨pointerAdd a.base (Shape.flatOffset (values a.dims) [x.val.min, y.val.min, c.val.min]),
    SDim.rangeInterval x a.x, SDim.rangeInterval y a.y, SDim.rangeInterval c a.c⟩

/-- array.h:1997-2004, 2096-2099 `a(_, y, _)` for an interval or a dim `y`. -/
def cropY (a : Image3) (y : SDim) : Image3 :=
  ⟨pointerAdd a.base (Shape.flatOffset (values a.dims) [a.x.val.min, y.val.min, a.c.val.min]),
    a.x, SDim.rangeInterval y a.y, a.c⟩

/-- array.h:1997-2004, 2096-2099 `a(_, y, _)` for an index `y`: base of the result; its dims are the
first and last one of `a`. -/
def sliceYBase (a : Image3) (y : Int) : Option Int :=
  pointerAdd a.base (Shape.flatOffset (values a.dims) [a.x.val.min, y, a.c.val.min])

end Image3

/-- `assert(b)`; `none`: it fails. -/
def requireAssert (debug b : Bool) : Option Unit := if debug && !b then none else some ()

section
variable {F : Type} (o : FloatOps F)

/-- `ein_reduce` (ein_reduce.h:418-443) with its assertions. -/
def einReduceDebug (debug : Bool) (f : F → F → F) (lhs : EinOp F) (rhs : EinExpr F) (m : Mem F) :
    Option (Mem F) := do
  requireAssert debug (einAssert lhs rhs)
  einReduce f lhs rhs m

/-- `kernel_y.x()`, the dim of a `dense_array<float, 1>`. -/
def kernelDim (k : Dense1 F) : SDim := ⟨⟨dynamic, dynamic, 1⟩, ⟨k.dom.min, k.dom.extent, 1⟩⟩

/-- resample.h:165-170: the body of the loop of `resample_y`.  `kaddr y` is the address of the first value
of `kernels(y)`. -/
def resampleRow (debug : Bool) (in_ out : Image3) (kernels : Dense1 (Dense1 F)) (kaddr : Int → Int)
    (m : Mem F) (y : Int) : Option (Mem F) := do
  let k ← kernels.get y
  let m := fill ⟨out.sliceYBase y, values [out.x, out.c]⟩ o.zero m
  einReduceDebug debug o.add ⟨.arr (out.sliceYBase y) [out.x, out.c], [0, 2]⟩
    (.binary o.mul (.op ⟨.arr (in_.cropY (kernelDim k)).base (in_.cropY (kernelDim k)).dims, [0, 1, 2]⟩)
      (.op ⟨.arr (some (kaddr y)) [kernelDim k], [1]⟩)) m

/-- resample.h:161-172 `resample_y`. -/
def resampleY (debug : Bool) (in_ out : Image3) (kernels : Dense1 (Dense1 F)) (kaddr : Int → Int)
    (m : Mem F) : Option (Mem F) := do
  let ys ← Interval.iterate out.y.val.toInterval
  ys.foldlM (resampleRow o debug in_ out kernels kaddr) m

/-- resample.h:175-183 `without_stride`, `make_temp_image_shape` with the `resolve` of array.h:2283. -/
def tempImageDims (x y c : SDim) : List SDim :=
  let l := [x.withStride 1, y.withStride dynamic, c.withStride dynamic]
  List.zipWith (fun d r => ⟨d.ty, d.ty.setStride d.val r.stride⟩) l (values l).resolve

/-- resample.h:185-188 `make_temp_image`: the image allocated at `buf` (array.h:2282-2291). -/
def tempImage (x y c : SDim) (buf : Int) : Image3 :=
  match tempImageDims x y c with
  | [x, y, c] =>
    let s := values [x, y, c]
    ⟨if s.flatExtent > 0 then some (buf - s.flatMin) else none, x, y, c⟩
  | _ => ⟨none, x, y, c⟩

/-- array.h:2294-2297: the elements of a new array are value-initialized. -/
def constructImage (a : Image3) (m : Mem F) : Mem F := fill ⟨a.base, values a.dims⟩ o.zero m

/-- resample.h:206-222: the body of the loop over strips.  `buf` gives the addresses of the three
temporaries. -/
def resampleStrip (debug : Bool) (in_ out : Image3) (kx ky : Dense1 (Dense1 F)) (ax ay : Int → Int)
    (buf : Interval → Nat → Int) (m : Mem F) (yo : Interval) : Option (Mem F) := do
  let outY := out.crop out.x ⟨⟨dynamic, 64, dynamic⟩, ⟨yo.min, yo.extent, unresolved⟩⟩ out.c
  let strip := tempImage in_.x outY.y outY.c (buf yo 0)
  let m ← resampleY o debug in_ strip ky ay (constructImage o strip m)
  let stripTr := tempImage outY.y in_.x outY.c (buf yo 1)
  let m ← einReduceDebug debug (fun _ v => v) ⟨.arr stripTr.base stripTr.dims, [0, 1, 2]⟩
    (.op ⟨.arr strip.base strip.dims, [1, 0, 2]⟩) (constructImage o stripTr m)
  let outTr := tempImage outY.y outY.x outY.c (buf yo 2)
  let m ← resampleY o debug stripTr outTr kx ax (constructImage o outTr m)
  einReduceDebug debug (fun _ v => v) ⟨.arr outY.base outY.dims, [0, 1, 2]⟩
    (.op ⟨.arr outTr.base outTr.dims, [1, 0, 2]⟩) m

/-- The cells of an array of kernels: output position and input position. -/
def kernelCells (ks : Dense1 (Dense1 F)) : List (Int × Int) :=
  ((List.range ks.dom.extent.toNat).map fun i : Nat =>
    (List.range (ks.data (ks.dom.min + i)).dom.extent.toNat).map fun j : Nat =>
      (ks.dom.min + (i : Int), (ks.data (ks.dom.min + i)).dom.min + (j : Int))).flatten

/-- Memory with the values of an array of kernels: value `r` of `kernels(x)` is at
`addr x + (r - min)`. -/
def placeKernels (ks : Dense1 (Dense1 F)) (addr : Int → Int) (m : Mem F) : Mem F :=
  (kernelCells ks).foldl (fun m p =>
    m.set (addr p.1 + (p.2 - (ks.data p.1).dom.min)) ((ks.data p.1).data p.2)) m

/-- resample.h:194-224 `resample`.  `none`: an assertion fails, a null pointer is dereferenced, a
kernel out of bounds is used, or a loop does not end. -/
def resample (debug : Bool) (in_ out : Image3) (rateX rateY : Rational) (kernel : F → F)
    (ax ay : Int → Int) (buf : Interval → Nat → Int) (m : Mem F) : Option (Mem F) := do
  let kx ← buildKernels o in_.x.val.toInterval out.x.val.toInterval rateX kernel
  let ky ← buildKernels o in_.y.val.toInterval out.y.val.toInterval rateY kernel
  let m := placeKernels ky ay (placeKernels kx ax m)
  requireAssert debug (splitStaticAssert 64 out.y.val.toInterval)
  let strips ← (splitStatic 64 out.y.val.toInterval).iterate
  strips.foldlM (resampleStrip o debug in_ out kx ky ax ay buf) m

end
end Nda
