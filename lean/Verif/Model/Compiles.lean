import Verif.Model.Interval
import Verif.Model.Loops
import Verif.Model.Ref
import Verif.Model.Ein
/-
Model of the compile-time requirements that choose between the overloads of `operator()` and `operator[]`, that give
the types of views, and that say for which functions loops compile.

Only the types that the library knows are distinguished; `other` stands for types that can be converted to none of
`index_t`, `interval<>` and `dim<>`. Types with user-defined conversions to one of these are not modelled.
-/
namespace Nda

/-- The type of an argument: a number (anything that converts to `index_t`, including floating-point numbers), an
interval, a dim, or anything else. -/
inductive ArgT where
  | number
  | interval (t : IntervalT)
  | dim (t : DimT)
  | other
deriving DecidableEq, Repr

/-- The types that arguments are tested against (array.h:1102-1114): `index_t`, `interval<>`, `dim<>`. -/
inductive ArgTarget where
  | index
  | interval
  | dim
deriving DecidableEq, Repr

/-- `std::is_constructible<target, Arg>`. The constructors are array.h:264-267 and 278-282 for `interval<>`, and
array.h:421-431 and 439-446 for `dim<>`; the base class of a `dim` is protected (array.h:403), so that an `interval<>`
cannot be constructed from a `dim`. -/
def isConstructible : ArgTarget → ArgT → Bool
  | .index, .number => true
  | .index, _ => false
  | .interval, .number => true
  | .interval, .interval t => IntervalT.canConvert ⟨dynamic, dynamic⟩ t
  | .interval, _ => false
  | .dim, .number => true
  | .dim, .interval t => IntervalT.canConvert ⟨dynamic, dynamic⟩ t
  | .dim, .dim t => DimT.canConvert DimT.any t
  | .dim, .other => false

/-- array.h:946-954 `internal::all_of_any_type<std::tuple<Ts...>, Args...>`. -/
def allOfAnyType (ts : List ArgTarget) : List ArgT → Bool
  | [] => true
  | arg :: args => any (ts.map fun t => isConstructible t arg) && allOfAnyType ts args

/-- array.h:956-959 `internal::all_of_type`. -/
def allOfType (t : ArgTarget) (args : List ArgT) : Bool := allOfAnyType [t] args

/-- array.h:1101-1103 (shapes), 2035-2037 (array_ref), 2262-2264 (array) `enable_if_all_indices`. -/
def enableIfAllIndices (rank : Nat) (args : List ArgT) : Bool := args.length == rank && allOfType .index args

/-- array.h:1105-1109, 2039-2043, 2266-2270 `enable_if_any_slices`. -/
def enableIfAnySlices (rank : Nat) (args : List ArgT) : Bool :=
  args.length == rank && allOfAnyType [.interval, .dim] args && !allOfType .index args

/-- array.h:1111-1114 `enable_if_any_slices_or_indices`, of `is_in_range` (1169-1176). -/
def enableIfAnySlicesOrIndices (rank : Nat) (args : List ArgT) : Bool :=
  args.length == rank && allOfAnyType [.interval, .dim] args

/-- The overloads of `operator()` and of `operator[]`. -/
inductive Overload where
  | element
  | view
deriving DecidableEq, Repr

/-- The overloads of `operator()(args...)` that can be called (array.h:1182-1185, 1196-1199; 2083-2086, 2096-2099;
2545-2552, 2561-2572). -/
def callOverloads (rank : Nat) (args : List ArgT) : List Overload :=
  (if enableIfAllIndices rank args then [.element] else []) ++ (if enableIfAnySlices rank args then [.view] else [])

/-- The overloads of `operator[](std::tuple<Args...>)` that can be called (array.h:1179-1181, 1190-1195; 2080-2082,
2092-2095; 2541-2544, 2557-2560, 2565-2568). The first takes an `index_type`, which is a tuple of `rank` values of type
`index_t`; a tuple converts to it if it has as many elements, and each of them converts. -/
def subscriptOverloads (rank : Nat) (args : List ArgT) : List Overload :=
  (if args.length == rank && args.all (isConstructible .index) then [.element] else []) ++
    (if enableIfAnySlices rank args then [.view] else [])

/-! ### The types of views -/

/-- An argument of a view with its type. -/
inductive SArg where
  | number (x : Int)
  | interval (t : IntervalT) (v : Interval)
  | dim (d : SDim)
deriving DecidableEq, Repr

namespace SArg

/-- The type of `_` and `all` (array.h:363). -/
def allT : IntervalT := ⟨0, -1⟩

/-- The type. -/
def ty : SArg → ArgT
  | .number _ => .number
  | .interval t _ => .interval t
  | .dim d => .dim d.ty

/-- The argument of the untyped model. -/
def toArg : SArg → Arg
  | .number x => .idx x
  | .interval t v => if t = allT then .all else .ivl v
  | .dim d => .dm d.val

/-- array.h:738-756 `internal::range_with_stride`. The overload for `decltype(_)` is more specialized than the one for
intervals. -/
def rangeWithStride : SArg → SDim → SDim
  | .number x, d => SDim.rangeIndex x d
  | .interval t v, d =>
    if t = allT then d else SDim.rangeInterval ⟨⟨t.min, t.extent, dynamic⟩, ⟨v.min, v.extent, unresolved⟩⟩ d
  | .dim c, d => SDim.rangeInterval c d

/-- The assertions of the constructors called by `range_with_stride`. -/
def rangeWithStrideAssert : SArg → SDim → Bool
  | .number x, d => SDim.rangeIndexAssert x d
  | .interval t v, d =>
    if t = allT then true else SDim.rangeIntervalAssert ⟨⟨t.min, t.extent, dynamic⟩, ⟨v.min, v.extent, unresolved⟩⟩ d
  | .dim c, d => SDim.rangeIntervalAssert c d

/-- array.h:765-777 `internal::skip_slices_impl`. -/
def skipSlices : SDim → SArg → List SDim
  | _, .number _ => []
  | d, .interval _ _ => [d]
  | d, .dim _ => [d]

end SArg

/-- array.h:1190-1199 `shape::operator[](args)`, with 758-762 and 779-783. -/
def typedView (dims : List SDim) (args : List SArg) : List SDim :=
  (List.zipWith SArg.skipSlices (List.zipWith SArg.rangeWithStride args dims) args).flatten

/-- All assertions executed by `shape::operator[](args)`; `shape(std::tuple<Dims...>)` of `make_shape_from_tuple`
(1044-1046, 1134-1136) checks each dim against its own type. -/
def typedViewAssert (dims : List SDim) (args : List SArg) : Bool :=
  (List.zipWith SArg.rangeWithStrideAssert args dims).all id &&
    (typedView dims args).all fun d => d.ty.assertDimCompatible d.val

/-! ### Shapes from shapes -/

/-- The constructors of `shape` from other objects (array.h:1134-1141). -/
inductive ShapeCtor where
  | fromTuple
  | fromDims
  | fromShape
deriving DecidableEq, Repr

/-- What a shape may be constructed from: a shape or a tuple of the given size. -/
inductive ShapeSource where
  | shape (rank : Nat)
  | tuple (size : Nat)
deriving DecidableEq, Repr

/-- array.h:1095-1096 `enable_if_dims_compatible<OtherDims...>`, which only counts. -/
def enableIfDimsCompatible (rank count : Nat) : Bool := count == rank

/-- The constructors (array.h:1134-1141) that can be called with one object. In the second, `OtherDims...` is the type of
this object, whatever it is. -/
def shapeConstructors (rank : Nat) (src : ShapeSource) : List ShapeCtor :=
  (match src with
    | .tuple n => if enableIfDimsCompatible rank n then [.fromTuple] else []
    | .shape n => if enableIfDimsCompatible rank n then [.fromShape] else []) ++
  if enableIfDimsCompatible rank 1 then [.fromDims] else []

/-- array.h:1596-1598 `enable_if_shapes_compatible<ShapeDst, ShapeSrc>`, the requirement of conversions between
`array_ref`s (2033, 2069-2077) and, with its arguments exchanged, of `is_compatible` (1648-1649):
`std::is_constructible`, that is, there is a constructor for it. -/
def enableIfShapesCompatible (dstRank srcRank : Nat) : Bool := !(shapeConstructors dstRank (.shape srcRank)).isEmpty

/-! ### Loops -/

/-- `for_each_index<LoopOrder...>(s, fn)` and `for_all_indices<LoopOrder...>(s, fn)` (array.h:1943-1972) compile for a
function that takes `n` indices. The first requirement is in the signature: `fn` takes as many indices as there are in
`LoopOrder`. The others are met when the body is compiled: each dim exists (1202, 1357-1360), and `fn` can be called
with what `unshuffle` returns (1564-1594). -/
def loopCompiles (rank : Nat) (order : List Nat) (n : Nat) : Bool :=
  if order = [] then n == rank
  else n == order.length && order.all (· < rank) && n == (unshuffle order order).length

end Nda
