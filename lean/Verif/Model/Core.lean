/-
Model of the run-time part of `interval`, `dim` and `shape` of /repo/include/array/array.h.
Template parameters are erased here (see `Verif.Model.Static` for the compile-time layer);
`index_t` is modelled by unbounded `Int` (see `Verif.Model.Checked` for fixed width).
Variadic packs and tuples are lists.
-/
namespace Nda

/-- array.h:99 `constexpr index_t dynamic = -9`. -/
def dynamic : Int := -9

/-- array.h:103 `constexpr index_t unresolved = std::numeric_limits<index_t>::min()`
(64-bit `ptrdiff_t`, array.h:87). -/
def unresolved : Int := -9223372036854775808

/-- `std::numeric_limits<index_t>::max()`, used at array.h:689, 876, 885. -/
def indexMax : Int := 9223372036854775807

/-- array.h:112 `internal::abs`. -/
def iabs (x : Int) : Int := if x ≥ 0 then x else -x

/-- array.h:117 `internal::is_resolved`. -/
def isResolvedStride (x : Int) : Bool := x != unresolved

/-- array.h:118 `internal::is_unresolved`. -/
def isUnresolved (x : Int) : Bool := x == unresolved

/-- array.h:170-173 `internal::max`. -/
def imax (a b : Int) : Int := if a < b then b else a

/-- array.h:175-178 `internal::min`. -/
def imin (a b : Int) : Int := if b < a then b else a

/-- Run-time content of `interval<Min, Extent>` (array.h:247-251). -/
structure Interval where
  min : Int
  extent : Int
deriving DecidableEq, Repr, Inhabited

/-- Run-time content of `dim<Min, Extent, Stride>` (array.h:396-402). -/
structure Dim where
  min : Int
  extent : Int
  stride : Int
deriving DecidableEq, Repr, Inhabited

namespace Interval

/-- array.h:301 `interval::max`. -/
def max (v : Interval) : Int := v.min + v.extent - 1

/-- array.h:302 `interval::set_max`. -/
def setMax (v : Interval) (m : Int) : Interval := { v with extent := m - v.min + 1 }

/-- array.h:305-307 `interval::is_in_range(index_t)`. -/
def isInRange (v : Interval) (at_ : Int) : Bool := decide (v.min ≤ at_) && decide (at_ ≤ v.max)

/-- array.h:310-314 `interval::is_in_range(interval)`. -/
def isInRangeI (v : Interval) (at_ : Interval) : Bool :=
  decide (v.min ≤ at_.min) && decide (at_.max ≤ v.max)

/-- array.h:322 `interval::begin`: the index held by the iterator. -/
def begin_ (v : Interval) : Int := v.min

/-- array.h:324 `interval::end`. -/
def end_ (v : Interval) : Int := v.max + 1

end Interval

/-- array.h:344-346 `range(begin, end)` and its alias `r`. -/
def range (b e : Int) : Interval := ⟨b, e - b⟩

namespace Dim

/-- The `interval` base class subobject (array.h:397). -/
def toInterval (d : Dim) : Interval := ⟨d.min, d.extent⟩

/-- array.h:301 `interval::max` (inherited by `dim`, array.h:463). -/
def max (d : Dim) : Int := d.min + d.extent - 1

/-- array.h:305-307 `is_in_range(index_t)` (inherited, array.h:462). -/
def isInRange (d : Dim) (at_ : Int) : Bool := decide (d.min ≤ at_) && decide (at_ ≤ d.max)

/-- array.h:310-314 `is_in_range(interval)` (inherited, array.h:462). -/
def isInRangeI (d : Dim) (at_ : Interval) : Bool :=
  decide (d.min ≤ at_.min) && decide (at_.max ≤ d.max)

/-- array.h:481-483 `dim::flat_offset`. -/
def flatOffset (d : Dim) (at_ : Int) : Int := (at_ - d.min) * d.stride

/-- array.h:322 `begin` (inherited, array.h:458). -/
def begin_ (d : Dim) : Int := d.min

/-- array.h:324 `end` (inherited, array.h:459). -/
def end_ (d : Dim) : Int := d.max + 1

end Dim

/-- array.h:376-378 `clamp(x, min, max)`. -/
def clamp (x lo hi : Int) : Int := imin (imax x lo) hi

/-- array.h:674-681, the overload set `internal::sum`. -/
def sum : List Int → Int
  | [] => 0
  | [x0] => x0
  | [x0, x1] => x0 + x1
  | [x0, x1, x2] => x0 + x1 + x2
  | x0 :: x1 :: x2 :: x3 :: rest => x0 + x1 + x2 + x3 + sum rest

/-- array.h:683-687 `internal::product`. -/
def product : List Int → Int
  | [] => 1
  | x :: rest => x * product rest

/-- array.h:689-693 `internal::variadic_min`. -/
def variadicMin : List Int → Int
  | [] => indexMax
  | x :: rest => imin x (variadicMin rest)

/-- array.h:695-699 `internal::variadic_max`. -/
def variadicMax : List Int → Int
  | [] => unresolved
  | x :: rest => imax x (variadicMax rest)

/-- array.h:708-711 `internal::all`: counts the false arguments with `sum`. -/
def all (bs : List Bool) : Bool := sum (bs.map fun b => if b then 0 else 1) == 0

/-- array.h:712-715 `internal::any`. -/
def any (bs : List Bool) : Bool := sum (bs.map fun b => if b then 1 else 0) != 0

/-- `shape<Dims...>::dims_` (array.h:1091); `std::tuple` of dims. -/
abbrev Shape := List Dim

/-- `shape::index_type` (array.h:1083). -/
abbrev Index := List Int

namespace Shape

/-- array.h:718-722 `internal::flat_offset`, 1179-1185 `shape::operator[]`, `operator()`.
The C++ types force `idx` to have `rank()` elements; theorems carry that as a hypothesis. -/
def flatOffset (s : Shape) (idx : Index) : Int := sum (List.zipWith Dim.flatOffset s idx)

/-- array.h:725-728 `internal::flat_min`, 1231. -/
def flatMin (s : Shape) : Int := sum (s.map fun d => (d.extent - 1) * imin 0 d.stride)

/-- array.h:730-734 `internal::flat_max`, 1232. -/
def flatMax (s : Shape) : Int := sum (s.map fun d => (d.extent - 1) * imax 0 d.stride)

/-- array.h:1233-1236 `shape::flat_extent` (a `size_t`). -/
def flatExtent (s : Shape) : Nat :=
  let e := flatMax s - flatMin s + 1
  if e < 0 then 0 else e.toNat

/-- array.h:1225 `shape::extent`. -/
def extents (s : Shape) : Index := s.map Dim.extent

/-- array.h:1223 `shape::min`. -/
def mins (s : Shape) : Index := s.map Dim.min

/-- array.h:1224 `shape::max`. -/
def maxs (s : Shape) : Index := s.map Dim.max

/-- array.h:1226 `shape::stride`. -/
def strides (s : Shape) : Index := s.map Dim.stride

/-- array.h:1239-1242 `shape::size` (a `size_t`). -/
def size (s : Shape) : Nat :=
  let n := product (extents s)
  if n < 0 then 0 else n.toNat

/-- array.h:1245 `shape::empty`. -/
def empty (s : Shape) : Bool := size s == 0

/-- array.h:1250 `shape::is_compact`. -/
def isCompact (s : Shape) : Bool := decide (flatExtent s ≤ size s)

/-- array.h:1256-1259 `shape::is_one_to_one`. -/
def isOneToOne (s : Shape) : Bool := decide (flatExtent s ≥ size s)

/-- array.h:1265-1268 `shape::is_subset_of`. -/
def isSubsetOf (s other : Shape) (offset : Int) : Bool :=
  decide (flatMin s ≥ flatMin other + offset) && decide (flatMax s ≤ flatMax other + offset)

/-- array.h:787-790, 1169-1176 `shape::is_in_range` for a tuple of indices. -/
def isInRange (s : Shape) (idx : Index) : Bool := Nda.all (List.zipWith Dim.isInRange s idx)

end Shape

/-! ### Automatic strides, array.h:836-918 -/

/-- array.h:841-867 `internal::is_stride_ok`. -/
def isStrideOk (stride extent : Int) (d : Dim) : Bool :=
  if isUnresolved d.stride then true
  else if extent = 1 ∧ iabs stride = iabs d.stride ∧ d.extent > 1 then false
  else if d.extent * iabs d.stride ≤ stride then true
  else if iabs d.stride ≥ extent * stride then true
  else false

/-- array.h:871-878 `internal::filter_stride`. -/
def filterStride (stride extent : Int) (dims : List Dim) : Int :=
  if all (dims.map (isStrideOk stride extent)) then stride else indexMax

/-- array.h:882-889 `internal::candidate_stride`. -/
def candidateStride (d : Dim) : Int :=
  if isUnresolved d.stride then indexMax else imax 1 (iabs d.stride * d.extent)

/-- array.h:892-896 `internal::find_stride`. -/
def findStride (extent : Int) (dims : List Dim) : Int :=
  variadicMin (filterStride 1 extent dims ::
    dims.map fun d => filterStride (candidateStride d) extent dims)

/-- array.h:899-908 `internal::resolve_unknown_strides(all_dims, dim0, dims...)`.
`done` are the dims already processed and `todo` the pack `dim0, dims...`; `all_dims`, which
the C++ code holds by reference, is `done ++ todo` at every step.  `dim0.set_stride` on a
dynamic stride overwrites it (array.h:472-478); a static stride is never unresolved. -/
def resolveLoop : List Dim → List Dim → List Dim
  | done, [] => done
  | done, d0 :: ds =>
    let d0' := if isUnresolved d0.stride then
        { d0 with stride := findStride d0.extent (done ++ d0 :: ds) } else d0
    resolveLoop (done ++ [d0']) ds

namespace Shape

/-- array.h:910-913, 1161 `shape::resolve`. -/
def resolve (s : Shape) : Shape := resolveLoop [] s

/-- array.h:915-918, 1164-1166 `shape::is_resolved`. -/
def isResolved (s : Shape) : Bool := Nda.all (s.map fun d => isResolvedStride d.stride)

/-- array.h:1035-1038, 1306-1308 `shape::bounds`. -/
def bounds (s : Shape) : Shape := s.map fun d => ⟨d.min, d.extent, unresolved⟩

end Shape
end Nda
