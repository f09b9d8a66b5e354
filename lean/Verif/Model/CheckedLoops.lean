import Verif.Model.Checked
import Verif.Model.Loops
import Verif.Model.Split
import Verif.Model.ZOrder
/-
Model of the arithmetic of loops on bounded `index_t`: optimizing shapes before a loop over values or a
copy (array.h:1714-1870), splitting intervals (array.h:516-647) and z-order traversals (z_order.h).

`index_t` is a two's complement integer of `w` bits: `w = 64` for `ptrdiff_t`, `w = 32` for `int`
(`NDARRAY_INT_INDICES`, array.h:83-89).  `none` is undefined behaviour (overflow) or a loop that does not
end.  Pointers are not bounded here.
-/
namespace Nda

section
variable {w : Nat}

/-- array.h:397-426 `dim`: min, extent and stride of `w` bits. -/
structure WDim (w : Nat) where
  min : BitVec w
  extent : BitVec w
  stride : BitVec w
deriving DecidableEq, Repr

/-- The integers held by a dim. -/
def WDim.toDim (d : WDim w) : Dim := ⟨d.min.toInt, d.extent.toInt, d.stride.toInt⟩

/-- array.h:674-681 `internal::sum`; `+` associates to the left. -/
def wSum : List (BitVec w) → Option (BitVec w)
  | [] => some 0#w
  | [x0] => some x0
  | [x0, x1] => cadd x0 x1
  | [x0, x1, x2] => do
    let a ← cadd x0 x1
    cadd a x2
  | x0 :: x1 :: x2 :: x3 :: rest => do
    let a ← cadd x0 x1
    let b ← cadd a x2
    let c ← cadd b x3
    let r ← wSum rest
    cadd c r

/-- array.h:481-483 `dim::flat_offset`. -/
def WDim.flatOffset (d : WDim w) (at_ : BitVec w) : Option (BitVec w) := do
  let t ← csub at_ d.min
  cmul t d.stride

/-- array.h:719-722, 1179-1185 `shape::operator[]`. -/
def wFlatOffset (s : List (WDim w)) (i : List (BitVec w)) : Option (BitVec w) := do
  let l ← (s.zip i).mapM fun p => p.1.flatOffset p.2
  wSum l

/-! ### Optimizing shapes -/

/-- array.h:1734-1736 `internal::can_fuse`. -/
def wCanFuse (inner outer : WDim w) : Option Bool := do
  let t ← cmul inner.stride inner.extent
  some (t == outer.stride)

/-- array.h:1738-1742 `internal::fuse`. -/
def wFuse (inner outer : WDim w) : Option (WDim w) := do
  let t ← cmul outer.min inner.extent
  let m ← cadd inner.min t
  let e ← cmul inner.extent outer.extent
  some ⟨m, e, inner.stride⟩

/-- The fusing loops of array.h:1777-1788 and 1818-1831: the head of the list is `dims[i]`. -/
def wFuseLoop {α : Type} (can : α → α → Option Bool) (fuse : α → α → Option α) : List α → Option (List α)
  | [] => some []
  | [d] => some [d]
  | d0 :: d1 :: ds => do
    let c ← can d0 d1
    if c then
      match fuse d0 d1 with
      | none => none
      | some d => wFuseLoop can fuse (d :: ds)
    else do
      let r ← wFuseLoop can fuse (d1 :: ds)
      some (d0 :: r)
termination_by l => l.length

/-- array.h:1749 `operator<(dim<>, dim<>)`. -/
def wDimLt (l r : WDim w) : Bool := l.stride.slt r.stride

/-- The filler of array.h:1793, 1836: `dim<>(0, 1, 0)`. -/
def wPad : WDim w := ⟨0#w, 1#w, 0#w⟩

/-- array.h:1769-1797 `internal::dynamic_optimize_shape`. -/
def wDynamicOptimizeShape (s : List (WDim w)) : Option (List (WDim w)) := do
  let r ← wFuseLoop wCanFuse wFuse (bubbleSort wDimLt s)
  some (padTo wPad s.length r)

/-- array.h:1848-1858 `internal::optimize_shape`. -/
def wOptimizeShape : List (WDim w) → Option (List (WDim w))
  | [d] => some [d]
  | s => wDynamicOptimizeShape s

/-- array.h:1744-1747 `internal::copy_dims`. -/
structure WCopyDims (w : Nat) where
  src : WDim w
  dst : WDim w
deriving DecidableEq, Repr

/-- The integers held by a pair of dims. -/
def WCopyDims.toCopyDims (d : WCopyDims w) : CopyDims := ⟨d.src.toDim, d.dst.toDim⟩

/-- array.h:1751-1753 `operator<(copy_dims, copy_dims)`. -/
def wCopyDimsLt (l r : WCopyDims w) : Bool := l.dst.stride.slt r.dst.stride

/-- array.h:1820-1821: `&&` does not evaluate its right operand if the left one is false. -/
def wCanFuseCopy (d0 d1 : WCopyDims w) : Option Bool :=
  if d0.src.extent == d0.dst.extent then do
    let c ← wCanFuse d0.src d1.src
    if c then wCanFuse d0.dst d1.dst else some false
  else some false

/-- array.h:1822-1823. -/
def wFuseCopy (d0 d1 : WCopyDims w) : Option (WCopyDims w) := do
  let s ← wFuse d0.src d1.src
  let d ← wFuse d0.dst d1.dst
  some ⟨s, d⟩

/-- array.h:1801-1846 `internal::dynamic_optimize_copy_shapes`. -/
def wDynamicOptimizeCopyShapes (src dst : List (WDim w)) : Option (List (WDim w) × List (WDim w)) := do
  let dims := List.zipWith WCopyDims.mk src dst
  let r ← wFuseLoop wCanFuseCopy wFuseCopy (bubbleSort wCopyDimsLt dims)
  let dims' := padTo ⟨wPad, wPad⟩ dims.length r
  some (dims'.map WCopyDims.src, dims'.map WCopyDims.dst)

/-- array.h:1860-1870 `internal::optimize_copy_shapes`. -/
def wOptimizeCopyShapes : List (WDim w) → List (WDim w) → Option (List (WDim w) × List (WDim w))
  | [s], [d] => some ([s], [d])
  | s, d => wDynamicOptimizeCopyShapes s d

/-- array.h:1718-1719 with the arguments of array.h:1923: the offsets of the first elements of the source
and of the destination, `shape_a[shape.min()]` and `shape_b[shape.min()]`. -/
def wCopyStart (src dst : List (WDim w)) : Option (BitVec w × BitVec w) := do
  let o ← wOptimizeCopyShapes src dst
  let a ← wFlatOffset o.1 (o.2.map WDim.min)
  let b ← wFlatOffset o.2 (o.2.map WDim.min)
  some (a, b)

/-! ### Splits of intervals -/

/-- array.h:264-298 `interval` of `w` bits. -/
structure WIvl (w : Nat) where
  min : BitVec w
  extent : BitVec w
deriving DecidableEq, Repr

/-- The integers held by an interval. -/
def WIvl.toInterval (v : WIvl w) : Interval := ⟨v.min.toInt, v.extent.toInt⟩

/-- array.h:301 `interval::max`: `min() + extent() - 1`. -/
def WIvl.max (v : WIvl w) : Option (BitVec w) := do
  let t ← cadd v.min v.extent
  csub t 1#w

/-- array.h:522-523 `split_iterator`. -/
structure WSplitIt (w : Nat) where
  i : WIvl w
  outerMax : BitVec w
deriving DecidableEq, Repr

/-- array.h:540-550 `operator+=` for a compile-time `InnerExtent = e`; `i.max()` is evaluated only if
`i.min() <= outer_max`. -/
def WSplitIt.addStatic (e : BitVec w) (it : WSplitIt w) (n : BitVec w) : Option (WSplitIt w) := do
  let t ← cmul e n
  let m ← cadd it.i.min t
  let i : WIvl w := ⟨m, it.i.extent⟩
  if m.sle it.outerMax then do
    let mx ← i.max
    if it.outerMax.slt mx then do
      let t ← csub it.outerMax e
      let m' ← cadd t 1#w
      some ⟨⟨m', it.i.extent⟩, it.outerMax⟩
    else some ⟨i, it.outerMax⟩
  else some ⟨i, it.outerMax⟩

/-- array.h:551-558 `operator+=` for a run-time inner extent. -/
def WSplitIt.addDynamic (it : WSplitIt w) (n : BitVec w) : Option (WSplitIt w) := do
  let t ← cmul it.i.extent n
  let m ← cadd it.i.min t
  let imx ← WIvl.max ⟨m, it.i.extent⟩
  let mx := if imx.slt it.outerMax then imx else it.outerMax
  let u ← csub mx m
  let e ← cadd u 1#w
  some ⟨⟨m, e⟩, it.outerMax⟩

/-- array.h:572-574 `operator-`. -/
def WSplitIt.sub (it r : WSplitIt w) : Option (BitVec w) :=
  if (0#w).slt r.i.extent then do
    let a ← it.i.max
    let b ← csub a r.i.min
    let c ← cadd b r.i.extent
    let d ← csub c it.i.extent
    cdiv d r.i.extent
  else some 0#w

/-- array.h:583-600 `split_result`. -/
structure WSplit (w : Nat) where
  begin_ : WSplitIt w
  end_ : WSplitIt w
  add : WSplitIt w → BitVec w → Option (WSplitIt w)

/-- array.h:598 `split_result::size`. -/
def WSplit.size (r : WSplit w) : Option (BitVec w) := r.end_.sub r.begin_

/-- A range-for loop over a `split_result`, with `++it` (array.h:563-565). -/
def WSplit.loop (r : WSplit w) (it : WSplitIt w) : Option (List (WIvl w)) :=
  if it.i.min == r.end_.i.min then some [] else do
    let it' ← r.add it 1#w
    let rest ← WSplit.loop r it'
    some (it.i :: rest)
partial_fixpoint

/-- `for (auto v : split(...))`. -/
def WSplit.iterate (r : WSplit w) : Option (List (WIvl w)) := r.loop r.begin_

/-- array.h:614-620 `split<InnerExtent>(v)`. -/
def wSplitStatic (e : BitVec w) (v : WIvl w) : Option (WSplit w) := do
  let mx ← v.max
  let en ← cadd mx 1#w
  some ⟨⟨⟨v.min, e⟩, mx⟩, ⟨⟨en, e⟩, mx⟩, WSplitIt.addStatic e⟩

/-- array.h:637-642 `split(v, inner_extent)`. -/
def wSplitDynamic (v : WIvl w) (innerExtent : BitVec w) : Option (WSplit w) := do
  let mx ← v.max
  let en ← cadd mx 1#w
  some ⟨⟨⟨v.min, if innerExtent.slt v.extent then innerExtent else v.extent⟩, mx⟩, ⟨⟨en, 0#w⟩, mx⟩,
    WSplitIt.addDynamic⟩

/-! ### Z-order -/

/-- The loop of z_order.h:33-35.  `result <<= 1` is undefined where `result * 2` overflows (before
C++20; from C++20 on, the loop then stays at 0 for ever). -/
def wNextPowerOfTwoLoop (x result : BitVec w) : Option (BitVec w) :=
  if result.slt x then do
    let r ← cmul result 2#w
    wNextPowerOfTwoLoop x r
  else some result
partial_fixpoint

/-- z_order.h:31-37 `internal::next_power_of_two`. -/
def wNextPowerOfTwo (x : BitVec w) : Option (BitVec w) := wNextPowerOfTwoLoop x 1#w

/-- z_order.h:41-67 `internal::for_each_index_in_z_order_impl`. -/
def wZOrderImpl {n : Nat} (end_ z : Fin (n + 1) → BitVec w) (dim : Fin (n + 1)) (step : BitVec w) :
    Option (List (Fin (n + 1) → BitVec w)) :=
  if dim = 0 ∧ step = 1#w then do
    let t ← cadd (z 0) 1#w
    let z' := Function.update z 0 t
    some (z :: if (z' 0).slt (end_ 0) then [z'] else [])
  else if dim = 0 then do
    let a ← wZOrderImpl end_ z (Fin.last n) (step.sshiftRight 1)
    let t ← cadd (z 0) step
    let z' := Function.update z 0 t
    if (z' 0).slt (end_ 0) then do
      let b ← wZOrderImpl end_ z' (Fin.last n) (step.sshiftRight 1)
      some (a ++ b)
    else some a
  else do
    let a ← wZOrderImpl end_ z (dim - 1) step
    let t ← cadd (z dim) step
    let z' := Function.update z dim t
    if (z' dim).slt (end_ dim) then do
      let b ← wZOrderImpl end_ z' (dim - 1) step
      some (a ++ b)
    else some a
partial_fixpoint

/-- `*std::max_element(end.begin(), end.end())`, z_order.h:76. -/
def wMaxElement {n : Nat} (end_ : Fin (n + 1) → BitVec w) : BitVec w :=
  (List.ofFn end_).foldl (fun m x => if m.slt x then x else m) (end_ 0)

/-- z_order.h:71-80 `internal::for_each_index_in_z_order`. -/
def wForEachIndexInZOrder {n : Nat} (extents : Fin (n + 1) → BitVec w) :
    Option (List (Fin (n + 1) → BitVec w)) := do
  let p ← wNextPowerOfTwo (wMaxElement extents)
  let h := p.sshiftRight 1
  wZOrderImpl extents (fun _ => 0#w) (Fin.last n) (if (1#w).slt h then h else 1#w)

end
end Nda
