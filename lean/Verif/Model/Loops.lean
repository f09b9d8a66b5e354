import Verif.Model.Core
/-
Model of the loop nests of array.h: range-for loops over dims, `for_each_index*`,
`for_each_value*` and the shape optimiser used by `for_each_value`.

A callback `fn` is modelled by the list ("trace") of the arguments it is called with, in call
order.  `none` is a loop that does not terminate.
-/
namespace Nda

/-- The C++11 range-for loop `for (index_t i : d)` of array.h:1374 etc.: it increments an
`index_iterator` (array.h:202-205) until it compares equal (`!=`, array.h:196-198) to `end()`.
Defined as a least fixed point: `none` means that the loop never reaches its end. -/
def rangeFor (i e : Int) : Option (List Int) :=
  if i = e then some [] else do
    let rest ← rangeFor (i + 1) e
    pure (i :: rest)
partial_fixpoint

/-- `for (index_t i : d)` for a dim `d` (`begin`/`end` of array.h:322-324). -/
def Dim.iterate (d : Dim) : Option (List Int) := rangeFor d.begin_ d.end_

/-- `for (index_t i : v)` for an interval `v`. -/
def Interval.iterate (v : Interval) : Option (List Int) := rangeFor v.begin_ v.end_

/-- Running a loop body for each value of a list; traces are concatenated. -/
def forBody {α β : Type} (body : α → Option (List β)) : List α → Option (List β)
  | [] => some []
  | a :: as => do
    let x ← body a
    let y ← forBody body as
    pure (x ++ y)

/-- array.h:1364-1406 `internal::for_each_index_in_order_impl`.  The dims come outermost first,
`idx` is the tuple of outer coordinates; coordinates are prepended by `std::tuple_cat`.
The cases are the overloads for 0, 1, 2 and at least 3 dims (the overload peeling two dims is
more specialised than the one peeling one, array.h:1389-1395). -/
def forEachIndexImpl : List Dim → Index → Option (List Index)
  | [], idx => some [idx]
  | [dim0], idx => do
    let is ← dim0.iterate
    forBody (fun i => some [i :: idx]) is
  | [dim0, dim1], idx => do
    let is ← dim0.iterate
    forBody (fun i => do
      let js ← dim1.iterate
      forBody (fun j => some [j :: i :: idx]) js) is
  | dim0 :: dim1 :: dims, idx => do
    let is ← dim0.iterate
    forBody (fun i => do
      let js ← dim1.iterate
      forBody (fun j => forEachIndexImpl dims (j :: i :: idx)) js) is

namespace Shape

/-- array.h:1408-1414 and 1687-1691 `for_each_index_in_order`: the dims are reversed so that the
first dim is innermost.  Also `shape_traits::for_each_index` (array.h:1887-1890) and
`for_each_index`, `for_all_indices` without loop order (array.h:1943-1955). -/
def forEachIndex (s : Shape) : Option (List Index) := forEachIndexImpl s.reverse []

/-- array.h:1357-1360 `reorder<DimIndices...>(shape)`.  `dim<D>` requires `D < rank()`
(array.h:1116-1117); theorems carry that as a hypothesis. -/
def reorder (is : List Nat) (s : Shape) : Shape := is.map fun i => s.getD i default

end Shape

/-- array.h:1564-1573 `internal::index_of<I, Is...>()`. -/
def indexOf (i : Nat) : List Nat → Nat
  | [] => 10000
  | i0 :: is => if i = i0 then 0 else 1 + indexOf i is

/-- array.h:1577-1584 `internal::get_or_empty<I>(t)`. -/
def getOrEmpty {α : Type} (i : Nat) (t : List α) : List α :=
  if h : i < t.length then [t[i]] else []

/-- array.h:1587-1594 `internal::unshuffle<Is...>(t)`. -/
def unshuffle {α : Type} (is : List Nat) (t : List α) : List α :=
  (List.range (variadicMax (is.map Int.ofNat) + 1).toNat).flatMap fun j =>
    getOrEmpty (indexOf j is) t

/-- array.h:1956-1972 `for_each_index<LoopOrder...>` / `for_all_indices<LoopOrder...>`. -/
def Shape.forEachIndexOrdered (order : List Nat) (s : Shape) : Option (List Index) :=
  (Shape.forEachIndex (Shape.reorder order s)).map fun tr => tr.map (unshuffle order)

/-! ### Loops over values -/

/-- The pack `Ptrs... ptrs` of array.h:1438-1486, instantiated in the library with one or two
pointers only (comment array.h:1435-1436).  The same type holds the pack of strides. -/
class PtrPack (P : Type) where
  /-- array.h:1426-1434 `internal::advance`: add the strides to the pointers. -/
  advance : P → P → P
  /-- array.h:1451 `all(std::get<0>(std::get<1>(ptrs)) == 1 ...)`. -/
  allOne : P → Bool
  /-- the first pointer, `ptr0` -/
  ptr0 : P → Int
  /-- array.h:1443 `ptr0++, ptrs++...` -/
  inc : P → P
  ptr0_inc : ∀ p, ptr0 (inc p) = ptr0 p + 1

instance : PtrPack Int where
  advance p s := p + s
  allOne s := all [s == 1]
  ptr0 p := p
  inc p := p + 1
  ptr0_inc _ := rfl

instance : PtrPack (Int × Int) where
  advance p s := (p.1 + s.1, p.2 + s.2)
  allOne s := all [s.1 == 1, s.2 == 1]
  ptr0 p := p.1
  inc p := (p.1 + 1, p.2 + 1)
  ptr0_inc _ := rfl

section
variable {P : Type} [PtrPack P]

/-- array.h:1438-1445 `for_each_value_in_order_inner_dense`, the loop
`while (ptr0 < end) fn(*ptr0++, *ptrs++...)`. -/
def denseLoop (e : Int) (p : P) : List P :=
  if PtrPack.ptr0 p < e then p :: denseLoop e (PtrPack.inc p) else []
termination_by (e - PtrPack.ptr0 p).toNat
decreasing_by rw [PtrPack.ptr0_inc]; omega

/-- The loop `for (index_t i = 0; i < extent_d; i++) { body; advance<D>(ptrs...); }` of
array.h:1454-1457 and 1465-1469; the first argument is the number of iterations left. -/
def strideLoop (body : P → List P) (stride : P) : Nat → P → List P
  | 0, _ => []
  | n + 1, p => body p ++ strideLoop body stride n (PtrPack.advance p stride)

/-- array.h:1447-1486 `internal::for_each_value_in_order(_impl)`.  The list holds extent and
strides of the dims, outermost first; the cases are the scalar overload (1482-1486), the inner
loop (1447-1459) and an outer loop (1461-1470). -/
def valueLoop : List (Int × P) → P → List P
  | [], p => [p]
  | [(e, st)], p =>
    if PtrPack.allOne st then denseLoop (PtrPack.ptr0 p + e) p
    else strideLoop (fun q => [q]) st e.toNat p
  | (e, st) :: rest, p => strideLoop (valueLoop rest) st e.toNat p

end

namespace Shape

/-- array.h:1692-1704 `for_each_value_in_order(shape, base, fn)`.  The trace is the list of
addresses passed to `fn`.  For a null `base` nothing is called. -/
def forEachValueInOrder (s : Shape) (base : Option Int) : List Int :=
  match base with
  | none => []
  | some b => valueLoop (s.map fun d => (d.extent, d.stride)).reverse b

/-- The assertion of array.h:1697: with a null base the shape must be empty. -/
def forEachValueInOrderAssert (s : Shape) (base : Option Int) : Bool :=
  base.isSome || s.empty

/-- array.h:1714-1730 `for_each_value_in_order(shape, shape_a, base_a, shape_b, base_b, fn)`.
The trace is the list of pairs of addresses passed to `fn`. -/
def forEachValueInOrder2 (s sa : Shape) (baseA : Option Int) (sb : Shape) (baseB : Option Int) :
    List (Int × Int) :=
  match baseA, baseB with
  | some a, some b =>
    let a := a + sa.flatOffset s.mins
    let b := b + sb.flatOffset s.mins
    valueLoop (List.zip s.extents (List.zip sa.strides sb.strides)).reverse (a, b)
  | _, _ => []

/-- The assertion of array.h:1720. -/
def forEachValueInOrder2Assert (s : Shape) (baseA baseB : Option Int) : Bool :=
  (baseA.isSome && baseB.isSome) || s.empty

end Shape

/-! ### Optimising shapes -/

/-- array.h:1734-1736 `internal::can_fuse`. -/
def canFuse (inner outer : Dim) : Bool := inner.stride * inner.extent == outer.stride

/-- array.h:1738-1742 `internal::fuse` (its assertion is tested by every caller). -/
def fuse (inner outer : Dim) : Dim :=
  ⟨inner.min + outer.min * inner.extent, inner.extent * outer.extent, inner.stride⟩

/-- Inner loop of `internal::bubble_sort` (array.h:1761-1763) for a fixed `i`: `x` is the current
`*i`, the list the elements after it.  `j = i` never swaps because `<` is irreflexive. -/
def bubbleInner {α : Type} (lt : α → α → Bool) (x : α) : List α → α × List α
  | [] => (x, [])
  | y :: ys =>
    if lt y x then let r := bubbleInner lt y ys; (r.1, x :: r.2)
    else let r := bubbleInner lt x ys; (r.1, y :: r.2)

theorem bubbleInner_length {α : Type} (lt : α → α → Bool) (x : α) (l : List α) :
    (bubbleInner lt x l).2.length = l.length := by
  induction l generalizing x with
  | nil => rfl
  | cons y ys ih => unfold bubbleInner; split <;> simp [ih]

/-- array.h:1758-1765 `internal::bubble_sort`. -/
def bubbleSort {α : Type} (lt : α → α → Bool) : List α → List α
  | [] => []
  | x :: xs =>
    let r := bubbleInner lt x xs
    r.1 :: bubbleSort lt r.2
termination_by l => l.length
decreasing_by simp [bubbleInner_length]

/-- The fusing loop of array.h:1777-1788 and 1818-1831: the head of the list is `dims[i]`. -/
def fuseLoop {α : Type} (can : α → α → Bool) (fuse : α → α → α) : List α → List α
  | [] => []
  | [d] => [d]
  | d0 :: d1 :: ds =>
    if can d0 d1 then fuseLoop can fuse (fuse d0 d1 :: ds)
    else d0 :: fuseLoop can fuse (d1 :: ds)
termination_by l => l.length

/-- array.h:1790-1794, 1833-1837: fill up to the original rank. -/
def padTo {α : Type} (pad : α) (n : Nat) (l : List α) : List α :=
  l ++ List.replicate (n - l.length) pad

/-- array.h:1749 `operator<(dim<>, dim<>)`. -/
def dimLt (l r : Dim) : Bool := decide (l.stride < r.stride)

/-- array.h:1769-1797 `internal::dynamic_optimize_shape`. -/
def dynamicOptimizeShape (s : Shape) : Shape :=
  padTo ⟨0, 1, 0⟩ s.length (fuseLoop canFuse fuse (bubbleSort dimLt s))

/-- array.h:1848-1858 `internal::optimize_shape` (rank 1 shapes are left alone). -/
def optimizeShape : Shape → Shape
  | [d] => [d]
  | s => dynamicOptimizeShape s

/-- array.h:1744-1747 `internal::copy_dims`. -/
structure CopyDims where
  src : Dim
  dst : Dim
deriving DecidableEq, Repr, Inhabited

/-- array.h:1751-1753 `operator<(copy_dims, copy_dims)`. -/
def copyDimsLt (l r : CopyDims) : Bool := decide (l.dst.stride < r.dst.stride)

/-- array.h:1820-1821. -/
def canFuseCopy (d0 d1 : CopyDims) : Bool :=
  d0.src.extent == d0.dst.extent && canFuse d0.src d1.src && canFuse d0.dst d1.dst

/-- array.h:1822-1823. -/
def fuseCopy (d0 d1 : CopyDims) : CopyDims := ⟨fuse d0.src d1.src, fuse d0.dst d1.dst⟩

/-- array.h:1801-1846 `internal::dynamic_optimize_copy_shapes`. -/
def dynamicOptimizeCopyShapes (src dst : Shape) : Shape × Shape :=
  let dims := List.zipWith CopyDims.mk src dst
  let dims := padTo ⟨⟨0, 1, 0⟩, ⟨0, 1, 0⟩⟩ dims.length
    (fuseLoop canFuseCopy fuseCopy (bubbleSort copyDimsLt dims))
  (dims.map CopyDims.src, dims.map CopyDims.dst)

/-- array.h:1860-1870 `internal::optimize_copy_shapes` (rank 1 shapes are left alone). -/
def optimizeCopyShapes : Shape → Shape → Shape × Shape
  | [s], [d] => ([s], [d])
  | s, d => dynamicOptimizeCopyShapes s d

namespace Shape

/-- array.h:1895-1899 `shape_traits<Shape>::for_each_value`. -/
def forEachValue (s : Shape) (base : Option Int) : List Int :=
  forEachValueInOrder (optimizeShape s) base

end Shape

/-- array.h:1914-1924 `copy_shape_traits<ShapeSrc, ShapeDst>::for_each_value`.
The trace is the list of (source, destination) addresses. -/
def copyForEachValue (src : Shape) (srcBase : Option Int) (dst : Shape) (dstBase : Option Int) :
    List (Int × Int) :=
  let o := optimizeCopyShapes src dst
  Shape.forEachValueInOrder2 o.2 o.1 srcBase o.2 dstBase

end Nda
