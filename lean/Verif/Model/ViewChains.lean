import Verif.Model.Array
import Verif.Model.Image
import Verif.Model.Static
/-
Views made from views, as one expression: `slice_channel(transpose<1, 0, 2>(a(_, range(2, 5), _)), 1)` and the like.
Nothing new is computed here: the steps are the functions of `Model/Ref.lean`, `Model/Image.lean` and
`Model/Static.lean`.
-/
namespace Nda

/-- One function of the library that makes a view from a view. -/
inductive ViewOp where
  /-- `a(args...)`, array.h:1997-2004, 2092-2099 -/
  | crop (args : List Arg)
  /-- `transpose<is...>(a)`, array.h:3082-3096 -/
  | transpose (is : List Nat)
  /-- `reorder<is...>(a)`, array.h:3097-3108 -/
  | reorder (is : List Nat)
  /-- `crop(a, x0, y0, x1, y1, origin)`, image.h:152-176 -/
  | cropImage (x0 y0 x1 y1 : Int) (origin : CropOrigin)
  /-- `slice_channel(a, c)`, image.h:180-191 -/
  | sliceChannel (c : Int)
  /-- `convert_shape<NewShape>(a)`, array.h:2984-2995 -/
  | convert (ts : List DimT)
deriving Repr

/-- The view that a step makes. -/
def ViewOp.apply (op : ViewOp) (a : ArrayRef) : ArrayRef :=
  match op with
  | .crop args => a.crop args
  | .transpose is => a.transpose is
  | .reorder is => a.reorder is
  | .cropImage x0 y0 x1 y1 o => Nda.cropImage a x0 y0 x1 y1 o
  | .sliceChannel c => Nda.sliceChannel a c
  | .convert ts => a.convertShape ts

/-- The steps, first to last. -/
def applyViews (ops : List ViewOp) (a : ArrayRef) : ArrayRef := ops.foldl (fun a op => op.apply a) a

/-- The shape of a chain of views of an array of shape `s`. -/
def viewShape (ops : List ViewOp) (s : Shape) : Shape := (applyViews ops ⟨some 0, s⟩).shape

/-- How many elements after the base of the array the base of the chain of views is. -/
def viewOffset (ops : List ViewOp) (s : Shape) : Int := (applyViews ops ⟨some 0, s⟩).base.getD 0

/-- array.h:2905-2912 `fill(view of x, v)`, where the view is made from `x.ref()` (array.h:2706-2710). -/
def fillChain {V : Type} (ty : Types V) (x : Nat) (ops : List ViewOp) (v : V) (w : World V) : Except Fault (World V) := do
  let a ← w.get x
  exec ty (.forEach x (viewShape ops a.shape) (viewOffset ops a.shape) fun _ _ => v) w

/-- array.h:2104-2107 `(view of x).for_each_value(f)`, where call number `k` replaces its argument by `f k` of it. -/
def forEachChain {V : Type} (ty : Types V) (x : Nat) (ops : List ViewOp) (f : Nat → V → V) (w : World V) :
    Except Fault (World V) := do
  let a ← w.get x
  exec ty (.forEach x (viewShape ops a.shape) (viewOffset ops a.shape) f) w

/-- array.h:2930-2954 `transform_index(view of x, f)`. -/
def transformChain {V : Type} (ty : Types V) (x : Nat) (ops : List ViewOp) (f : Index → V) (w : World V) :
    Except Fault (World V) := do
  let a ← w.get x
  exec ty (.transform x (viewShape ops a.shape) (viewOffset ops a.shape) f) w

/-- array.h:2763-2788 `copy(view of y, view of x)`. -/
def copyChain {V : Type} (ty : Types V) (y : Nat) (src : List ViewOp) (x : Nat) (dst : List ViewOp) (w : World V) :
    Except Fault (World V) := do
  let o ← w.get y
  let a ← w.get x
  exec ty (.copyRef y (viewShape src o.shape) (viewOffset src o.shape) x (viewShape dst a.shape)
    (viewOffset dst a.shape)) w

/-- array.h:2804-2812 `make_copy(view of y, shape, alloc)`; the copy is object number `w.nextVar`. -/
def makeCopyChain {V : Type} (ty : Types V) (y : Nat) (src : List ViewOp) (shape : Shape) (alloc : Nat) (w : World V) :
    Except Fault (World V) := do
  let o ← w.get y
  exec ty (.makeCopyRef y (viewShape src o.shape) (viewOffset src o.shape) shape alloc) w

end Nda
