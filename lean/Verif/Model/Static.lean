import Verif.Model.Ref
/-
Model of the compile-time layer of array.h: template parameters of `interval` and `dim`, which may
be the placeholder `dynamic`, arithmetic on them, conversion between dims and shapes of different
types, `make_compact`, `clamp` of dims and `convert_shape`.

A `dim<Min, Extent, Stride>` object is modelled by its type (`DimT`) and the values its accessors
return (`Dim`).  Every `assert` is modelled by a separate Boolean function (`...Assert`); the value
functions say what a build without assertions computes.
-/
namespace Nda

/-- array.h:114 `internal::is_static`. -/
def isStatic (x : Int) : Bool := x != dynamic

/-- array.h:115 `internal::is_dynamic`. -/
def isDynamic (x : Int) : Bool := x == dynamic

/-- array.h:120 `internal::is_dynamic(a, b)`. -/
def isDynamic2 (a b : Int) : Bool := isDynamic a || isDynamic b

/-- array.h:124 `internal::not_equal`. -/
def notEqual (a b : Int) : Bool := isStatic a && isStatic b && a != b

/-- array.h:130 `internal::static_abs`. -/
def staticAbs (x : Int) : Int := if isDynamic x then dynamic else iabs x
/-- array.h:131 `internal::static_add`. -/
def staticAdd (a b : Int) : Int := if isDynamic2 a b then dynamic else a + b
/-- array.h:132 `internal::static_sub`. -/
def staticSub (a b : Int) : Int := if isDynamic2 a b then dynamic else a - b
/-- array.h:133 `internal::static_mul`. -/
def staticMul (a b : Int) : Int := if isDynamic2 a b then dynamic else a * b
/-- array.h:134-136 `internal::static_min`. -/
def staticMin (a b : Int) : Int := if isDynamic2 a b then dynamic else (if a < b then a else b)
/-- array.h:137-139 `internal::static_max`. -/
def staticMax (a b : Int) : Int := if isDynamic2 a b then dynamic else (if a > b then a else b)

/-- array.h:143-167 `constexpr_index<Value>`, construction from or assignment of `value`: what
reading it back gives. -/
def ciInit (V value : Int) : Int := if isStatic V then V else value

/-- The `assert(value == Value)` of array.h:148 and 150 (there is none when `Value` is dynamic). -/
def ciAssert (V value : Int) : Bool := isDynamic V || value == V

/-- Template parameters of `dim<Min, Extent, Stride>` (array.h:395-396). -/
structure DimT where
  min : Int
  extent : Int
  stride : Int
deriving DecidableEq, Repr, Inhabited

/-- `dim<>`. -/
def DimT.any : DimT := ⟨dynamic, dynamic, dynamic⟩

/-- An object of type `dim<...>`. -/
structure SDim where
  ty : DimT
  val : Dim
deriving DecidableEq, Repr, Inhabited

namespace DimT

/-- array.h:255 `interval::Max`. -/
def Max (t : DimT) : Int := staticSub (staticAdd t.min t.extent) 1

/-- array.h:413 `dim::DefaultStride`. -/
def defaultStride (t : DimT) : Int := if isStatic t.stride then t.stride else unresolved

/-- array.h:423-424 with 264: `dim(min, extent, stride)`. -/
def make (t : DimT) (min extent stride : Int) : Dim :=
  ⟨ciInit t.min min, ciInit t.extent extent, ciInit t.stride stride⟩

def makeAssert (t : DimT) (min extent stride : Int) : Bool :=
  ciAssert t.min min && ciAssert t.extent extent && ciAssert t.stride stride

/-- array.h:425 `dim(extent)`. -/
def ofExtent (t : DimT) (extent : Int) : Dim :=
  make t (if isStatic t.min then t.min else 0) extent t.defaultStride

def ofExtentAssert (t : DimT) (extent : Int) : Bool :=
  makeAssert t (if isStatic t.min then t.min else 0) extent t.defaultStride

/-- array.h:426 `dim()`. -/
def default_ (t : DimT) : Dim := ofExtent t (if isStatic t.extent then t.extent else 0)

def defaultAssert (t : DimT) : Bool := ofExtentAssert t (if isStatic t.extent then t.extent else 0)

/-- array.h:471-477 `dim::set_stride`. -/
def setStride (t : DimT) (d : Dim) (stride : Int) : Dim :=
  if isStatic t.stride then d else { d with stride := stride }

def setStrideAssert (t : DimT) (stride : Int) : Bool :=
  isDynamic t.stride || isUnresolved stride || stride == t.stride

/-- array.h:294 `set_min` (inherited by `dim`). -/
def setMin (t : DimT) (d : Dim) (min : Int) : Dim := { d with min := ciInit t.min min }

/-- array.h:298 `set_extent`. -/
def setExtent (t : DimT) (d : Dim) (extent : Int) : Dim :=
  { d with extent := ciInit t.extent extent }

/-- array.h:439-446: constructing `dim<t>` from a dim of another type. -/
def convert (t : DimT) (src : Dim) : Dim :=
  t.setStride (t.make src.min src.extent t.defaultStride) src.stride

def convertAssert (t : DimT) (src : Dim) : Bool :=
  t.makeAssert src.min src.extent t.defaultStride && t.setStrideAssert src.stride

/-- array.h:440-442: the overload exists only if no pair of static parameters differs. -/
def canConvert (t u : DimT) : Bool :=
  !notEqual t.min u.min && !notEqual t.extent u.extent && !notEqual t.stride u.stride

/-- array.h:447-456: assigning a dim of another type to the `dim<t>` object `d`. -/
def assign (t : DimT) (d src : Dim) : Dim :=
  t.setStride (t.setExtent (t.setMin d src.min) src.extent) src.stride

/-- array.h:992-1015 `internal::assert_dim_compatible<dim<t>>`: the value of `compatible`. -/
def assertDimCompatible (t : DimT) (src : Dim) : Bool :=
  let compatible := true
  let compatible := if isStatic t.min && src.min != t.min then false else compatible
  let compatible := if isStatic t.extent && src.extent != t.extent then false else compatible
  let compatible :=
    if isStatic t.stride && isResolvedStride src.stride && src.stride != t.stride then false
    else compatible
  compatible

/-- array.h:1535-1539 `internal::is_dim_compatible`. -/
def isDimCompatible (t : DimT) (src : Dim) : Bool :=
  (isDynamic t.min || src.min == t.min) && (isDynamic t.extent || src.extent == t.extent) &&
    (isDynamic t.stride || src.stride == t.stride)

end DimT

/-- array.h:1133-1145: constructing or assigning `shape<dim<t>...>` from another shape.  The
overload exists only for equal rank. -/
def convertShapeSameRank (ts : List DimT) (src : Shape) : Shape := List.zipWith DimT.convert ts src

/-- array.h:1017-1032 `internal::assert_dims_compatible`. -/
def assertDimsCompatible (ts : List DimT) (src : Shape) : Bool :=
  Nda.all (List.zipWith DimT.assertDimCompatible ts src)

/-- Every assertion executed by the conversion: first `assert_dims_compatible`, then those of the
dim constructors. -/
def convertShapeSameRankAssert (ts : List DimT) (src : Shape) : Bool :=
  assertDimsCompatible ts src && Nda.all (List.zipWith DimT.convertAssert ts src)

/-- array.h:1541-1545 with 1648-1652 `is_compatible<ShapeDst>(src)`. -/
def isCompatible (ts : List DimT) (src : Shape) : Bool :=
  Nda.all (List.zipWith DimT.isDimCompatible ts src)

namespace SDim

/-- array.h:1547-1556 `internal::clamp_dims`. -/
def clampTy (a b : DimT) : DimT :=
  let mn := staticMax a.min b.min
  let mx := staticMin a.Max b.Max
  ⟨mn, staticAdd (staticSub mx mn) 1, a.stride⟩

def clampVal (a b : Dim) : Dim :=
  let mn := imax a.min b.min
  let mx := imin a.max b.max
  ⟨mn, mx - mn + 1, a.stride⟩

def clampDims (a b : SDim) : SDim :=
  let v := clampVal a.val b.val
  ⟨clampTy a.ty b.ty, (clampTy a.ty b.ty).make v.min v.extent v.stride⟩

def clampDimsAssert (a b : SDim) : Bool :=
  let v := clampVal a.val b.val
  (clampTy a.ty b.ty).makeAssert v.min v.extent v.stride

/-- array.h:738-741 `range_with_stride(index_t, dim)`. -/
def rangeIndex (x : Int) (d : SDim) : SDim :=
  let t : DimT := ⟨dynamic, 1, d.ty.stride⟩
  ⟨t, t.make x 1 d.val.stride⟩

def rangeIndexAssert (x : Int) (d : SDim) : Bool :=
  DimT.makeAssert ⟨dynamic, 1, d.ty.stride⟩ x 1 d.val.stride

/-- array.h:742-752 `range_with_stride(interval or dim, dim)`. -/
def rangeInterval (c d : SDim) : SDim :=
  let t : DimT := ⟨c.ty.min, c.ty.extent, d.ty.stride⟩
  ⟨t, t.make c.val.min c.val.extent d.val.stride⟩

def rangeIntervalAssert (c d : SDim) : Bool :=
  DimT.makeAssert ⟨c.ty.min, c.ty.extent, d.ty.stride⟩ c.val.min c.val.extent d.val.stride

end SDim

/-- array.h:1558-1561 `internal::clamp(dims, dims)`. -/
def clampShape (a b : List SDim) : List SDim := List.zipWith SDim.clampDims a b

/-- The values of `clampShape`. -/
def Shape.clamp (a b : Shape) : Shape := List.zipWith SDim.clampVal a b

/-- array.h:1496-1513 `internal::make_compact_dims<CurrentStride>(dims...)`. -/
def makeCompactDimsFrom : Int → List SDim → List SDim
  | _, [] => []
  | cur, d :: ds =>
    let next := staticMul cur d.ty.extent
    let newStride := if isStatic d.ty.stride then d.ty.stride else cur
    let t : DimT := ⟨d.ty.min, d.ty.extent, newStride⟩
    ⟨t, t.make d.val.min d.val.extent t.defaultStride⟩ :: makeCompactDimsFrom next ds

/-- array.h:1523-1531: the stride `make_compact_dims` starts with. -/
def makeCompactStart (l : List SDim) : Int :=
  let minStride := variadicMax (l.map fun d => if d.ty.stride == 1 then staticAbs d.ty.extent else dynamic)
  let anyStrideGreaterThanOne := Nda.any (l.map fun d => decide (d.ty.stride > 1))
  let allDynamic := Nda.all (l.map fun d => isDynamic d.ty.stride)
  if anyStrideGreaterThanOne then dynamic else (if allDynamic then 1 else minStride)

/-- array.h:1515-1533 `internal::make_compact_dims(dims)`. -/
def makeCompactDims (l : List SDim) : List SDim := makeCompactDimsFrom (makeCompactStart l) l

/-- The values of a list of typed dims. -/
def values (l : List SDim) : Shape := l.map SDim.val

/-- The types of a list of typed dims. -/
def types (l : List SDim) : List DimT := l.map SDim.ty

/-- array.h:1633-1639 `make_compact`: `make_compact_dims`, then `resolve` (which goes through
`set_stride` of each type, array.h:899-904). -/
def makeCompact (l : List SDim) : List SDim :=
  let c := makeCompactDims l
  List.zipWith (fun d r => ⟨d.ty, d.ty.setStride d.val r.stride⟩) c (values c).resolve

/-- array.h:1642-1644 `fixed_dense_shape<Extents...>`, default constructed: all its parameters are
template arguments. -/
def fixedDense (extents : List Int) : List SDim :=
  let ts := types (makeCompactDimsFrom 1 (extents.map fun e =>
    let t : DimT := ⟨0, e, dynamic⟩
    ⟨t, t.default_⟩))
  ts.map fun t => ⟨t, t.default_⟩

/-- array.h:1488-1494 `dense_shape<Rank>`: types only. -/
def denseShapeTy : Nat → List DimT
  | 0 => []
  | n + 1 => ⟨dynamic, dynamic, 1⟩ :: List.replicate n DimT.any

/-- array.h:961-969 `internal::convert_dim<I, T>`: the dim of the source, or a dim of the
destination type with extent 1. -/
def convertDim (ts : List DimT) (src : Shape) (i : Nat) : Dim :=
  if i < src.length then src.getD i default else (ts.getD i default).ofExtent 1

/-- array.h:971-974 `internal::convert_dims` (the conversion to `T` at the end converts each dim). -/
def convertDims (ts : List DimT) (src : Shape) : Shape :=
  (List.range ts.length).map fun i => (ts.getD i default).convert (convertDim ts src i)

/-- array.h:976-982 `internal::is_trivial_slice<DstRank>`. -/
def isTrivialSlice (dstRank : Nat) (src : Shape) : Bool :=
  Nda.all ((List.range src.length).map fun i =>
    decide (i < dstRank) || (src.getD i default).extent == 1)

/-- array.h:1662-1669 `convert_shape<ShapeDst>(src)`. -/
def convertShape (ts : List DimT) (src : Shape) : Shape := convertDims ts src

/-- Every assertion executed by `convert_shape`. -/
def convertShapeAssert (ts : List DimT) (src : Shape) : Bool :=
  isTrivialSlice ts.length src &&
  Nda.all ((List.range ts.length).map fun i =>
    (decide (i < src.length) || (ts.getD i default).ofExtentAssert 1) &&
    (ts.getD i default).convertAssert (convertDim ts src i))

/-- array.h:2984-2987 `convert_shape(array_ref)`: same base, no resolve. -/
def ArrayRef.convertShape (ts : List DimT) (a : ArrayRef) : ArrayRef := ⟨a.base, Nda.convertShape ts a.shape⟩

end Nda
