import Verif.Model.Ref
/-
Model of matrix.h (traversal of matrices) and image.h (traversal, cropping and slicing of images).
Shapes of another rank than the function is written for do not compile; here they give the outcome
`none` for loops.
-/
namespace Nda

/-- matrix.h:61-68 `for_each_matrix_index`: the indices passed to `fn`, in order; `none` if a loop
does not terminate. -/
def forEachMatrixIndex : Shape → Option (List Index)
  | [di, dj] => do
    let is ← di.iterate
    forBody (fun i => do
      let js ← dj.iterate
      forBody (fun j => some [[i, j]]) js) is
  | _ => none

/-- matrix.h:75-78 `shape_traits<matrix_shape>::for_each_index`. -/
def matrixForEachIndex (s : Shape) : Option (List Index) := forEachMatrixIndex s

/-- The addresses `base[s[i]]` of a list of indices; a null `base` must not be accessed. -/
def accesses (s : Shape) (base : Option Int) (l : List Index) : Option (List Int) :=
  forBody (fun i => base.map fun b => [b + s.flatOffset i]) l

/-- matrix.h:80-84 `shape_traits<matrix_shape>::for_each_value`: the addresses passed to `fn`. -/
def matrixForEachValue (s : Shape) (base : Option Int) : Option (List Int) := do
  let l ← forEachMatrixIndex s
  accesses s base l

/-- image.h:53-66 `for_each_image_index`. -/
def forEachImageIndex : Shape → Option (List Index)
  | [dx, dy, dc] => do
    let ys ← dy.iterate
    forBody (fun y => do
      let xs ← dx.iterate
      forBody (fun x => do
        let cs ← dc.iterate
        forBody (fun c => some [[x, y, c]]) cs) xs) ys
  | _ => none

/-- image.h:78-82 `shape_traits<chunky_image_shape<Channels, XStride>>::for_each_value`, the case
of a pixel stride that is not the number of channels. -/
def paddedForEachValue (s : Shape) (base : Option Int) : Option (List Int) := do
  let l ← forEachImageIndex s
  accesses s base l

/-- image.h:97-106 `shape_traits<chunky_image_shape<Channels>>::for_each_value`.  `opt_s` is
`dense_shape<2>`, so its first dim has stride 1 (array.h:1488-1491, 1618-1620). -/
def chunkyForEachValue (s : Shape) (base : Option Int) : Option (List Int) :=
  match s with
  | [dx, dy, dc] =>
    let channels := dc.extent
    if channels == dx.stride then
      some (Shape.forEachValueInOrder [⟨dx.min * channels, dx.extent * channels, 1⟩, dy] base)
    else some (s.forEachValueInOrder base)
  | _ => none

/-- image.h:121-127 `crop_origin`. -/
inductive CropOrigin where
  | zero
  | crop
deriving DecidableEq, Repr, Inhabited

/-- image.h:131-147 `crop_image_shape`.  The x and y dims keep their strides. -/
def cropImageShape (s : Shape) (x0 y0 x1 y1 : Int) (origin : CropOrigin) : Shape :=
  match s with
  | dx :: dy :: rest =>
    match origin with
    | .zero => ⟨0, x1 - x0, dx.stride⟩ :: ⟨0, y1 - y0, dy.stride⟩ :: rest
    | .crop => ⟨x0, x1 - x0, dx.stride⟩ :: ⟨y0, y1 - y0, dy.stride⟩ :: rest
  | _ => s

/-- image.h:152-166 `crop`.  (`im(x0, y0, c0)` is evaluated for its address only.) -/
def cropImage (im : ArrayRef) (x0 y0 x1 y1 : Int) (origin : CropOrigin) : ArrayRef :=
  match im.shape with
  | [dx, dy, dc] =>
    let x0 := imax x0 dx.min
    let y0 := imax y0 dy.min
    let x1 := imin x1 (dx.max + 1)
    let y1 := imin y1 (dy.max + 1)
    let croppedShape := cropImageShape im.shape x0 y0 x1 y1 origin
    let c0 := dc.min
    let base := im.base.map (· + im.shape.flatOffset [x0, y0, c0])
    let base := match origin with
      | .crop => pointerAdd base (-croppedShape.flatOffset [x0, y0, c0])
      | .zero => base
    ArrayRef.make base croppedShape
  | _ => im

/-- image.h:180-183 `slice_channel`. -/
def sliceChannel (im : ArrayRef) (channel : Int) : ArrayRef :=
  match im.shape with
  | [dx, dy, _] => im.crop [.dm dx, .dm dy, .idx channel]
  | _ => im

end Nda
