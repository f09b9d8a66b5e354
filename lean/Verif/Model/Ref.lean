import Verif.Model.Loops
/-
Model of `array_ref` (array.h:2010-2219): a base pointer and a shape, cropping and slicing,
reinterpreting, transposing and reordering.  Pointers are `Option Int` in units of elements
(`none` is the null pointer).
-/
namespace Nda

/-- array.h:2048-2049: the members of `array_ref`. -/
structure ArrayRef where
  base : Option Int
  shape : Shape
deriving DecidableEq, Repr, Inhabited

/-- array.h:1872-1875 `internal::pointer_add`: the null pointer stays null. -/
def pointerAdd (x : Option Int) (offset : Int) : Option Int := x.map (· + offset)

/-- One argument of a crop or slice: `index_t`, `interval<...>`, `dim<...>` or `_`. -/
inductive Arg where
  | idx (i : Int)
  | ivl (v : Interval)
  | dm (d : Dim)
  | all
deriving DecidableEq, Repr, Inhabited

namespace Arg

/-- array.h:738-756 `internal::range_with_stride`. -/
def rangeWithStride : Arg → Dim → Dim
  | idx x, d => ⟨x, 1, d.stride⟩
  | ivl x, d => ⟨x.min, x.extent, d.stride⟩
  | dm x, d => ⟨x.min, x.extent, d.stride⟩
  | all, d => d

/-- array.h:765-777 `internal::skip_slices_impl`: a tuple of at most one dim. -/
def skipSlices : Dim → Arg → List Dim
  | _, idx _ => []
  | d, ivl _ => [d]
  | d, dm _ => [d]
  | d, all => [d]

/-- array.h:793-808 `internal::min_of_range`. -/
def minOfRange : Arg → Dim → Int
  | idx x, _ => x
  | ivl x, _ => x.min
  | dm x, _ => x.min
  | all, d => d.min

/-- `dim::is_in_range` for each kind of argument (array.h:305-319).  `_` is the object
`interval<0, -1>` (array.h:363) and takes the interval overload. -/
def isInRange : Dim → Arg → Bool
  | d, idx x => d.isInRange x
  | d, ivl x => d.isInRangeI x
  | d, dm x => d.isInRangeI x.toInterval
  | d, all => d.isInRangeI ⟨0, -1⟩

end Arg

namespace Shape

/-- array.h:1190-1199 `shape::operator[](args)` with at least one non-index argument, with
758-762 `intervals_with_strides` and 779-783 `skip_slices`. -/
def crop (s : Shape) (args : List Arg) : Shape :=
  (List.zipWith Arg.skipSlices (List.zipWith Arg.rangeWithStride args s) args).flatten

/-- array.h:1169-1176, 786-790 `shape::is_in_range(args)`. -/
def isInRangeArgs (s : Shape) (args : List Arg) : Bool :=
  Nda.all (List.zipWith Arg.isInRange s args)

/-- array.h:810-814 `internal::mins_of_intervals`. -/
def minsOfIntervals (args : List Arg) (s : Shape) : Index := List.zipWith Arg.minOfRange args s

/-- array.h:1324-1328, 1344-1349 `transpose<DimIndices...>(shape)`: the listed dims, then the
dims after the first `sizeof...(DimIndices)`. -/
def transpose (is : List Nat) (s : Shape) : Shape :=
  s.reorder is ++ s.drop is.length

end Shape

/-- array.h:984 `internal::factorial(x)` for `x = n + 1` (it is only called with `Rank + 1`). -/
def factorialSucc : Nat → Int
  | 0 => 1
  | n + 1 => (n + 2 : Int) * factorialSucc n

/-- array.h:986-990 `internal::enable_if_permutation<Rank, Is...>`. -/
def permutationCheck (rank : Nat) (is : List Nat) : Bool :=
  is.length == rank && Nda.all (is.map fun i => decide (i < rank)) &&
    product (is.map fun i => ((i + 2 : Nat) : Int)) == factorialSucc rank

namespace ArrayRef

/-- array.h:2054-2057: the constructor resolves the shape. -/
def make (base : Option Int) (shape : Shape) : ArrayRef := ⟨base, shape.resolve⟩

/-- array.h:2080-2086 `array_ref::operator[](index_type)`: the address of the element;
dereferencing a null base is undefined (`none`). -/
def at_ (a : ArrayRef) (i : Index) : Option Int := a.base.map (· + a.shape.flatOffset i)

/-- array.h:1997-2004, 2092-2099 `array_ref::operator()(args...)` with slices. -/
def crop (a : ArrayRef) (args : List Arg) : ArrayRef :=
  ⟨pointerAdd a.base (a.shape.flatOffset (Shape.minsOfIntervals args a.shape)), a.shape.crop args⟩

/-- array.h:2114-2116 `array_ref::data`. -/
def data (a : ArrayRef) : Option Int := pointerAdd a.base a.shape.flatMin

/-- array.h:2141 `array_ref::empty`. -/
def empty (a : ArrayRef) : Bool := if a.base.isSome then a.shape.empty else true

/-- array.h:2104-2107 `array_ref::for_each_value`: addresses passed to the function. -/
def forEachValue (a : ArrayRef) : List Int := a.shape.forEachValue a.base

/-- array.h:2211-2218 `array_ref::set_shape`. -/
def setShape (a : ArrayRef) (newShape : Shape) (offset : Int) : ArrayRef :=
  ⟨pointerAdd a.base offset, newShape⟩

/-- The assertions of array.h:2212-2215. -/
def setShapeAssert (a : ArrayRef) (newShape : Shape) (offset : Int) : Bool :=
  newShape.isResolved && newShape.isSubsetOf a.shape (-offset)

/-- array.h:3023-3029 `reinterpret_shape`.  The base pointer is moved by plain addition. -/
def reinterpretShape (a : ArrayRef) (newShape : Shape) (offset : Int) : ArrayRef :=
  make (a.base.map (· + offset)) newShape

/-- The assertion of array.h:3027. -/
def reinterpretShapeAssert (a : ArrayRef) (newShape : Shape) (offset : Int) : Bool :=
  (a.reinterpretShape newShape offset).shape.isSubsetOf a.shape (-offset)

/-- array.h:3082-3086 `transpose<DimIndices...>(array_ref)`. -/
def transpose (is : List Nat) (a : ArrayRef) : ArrayRef :=
  a.reinterpretShape (a.shape.transpose is) 0

/-- array.h:3097-3100 `reorder<DimIndices...>(array_ref)`. -/
def reorder (is : List Nat) (a : ArrayRef) : ArrayRef :=
  a.reinterpretShape (a.shape.reorder is) 0

end ArrayRef
end Nda
