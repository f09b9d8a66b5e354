import Verif.Model.Loops
/-
Model of the loops over values (array.h:1426-1486) that also records the pointers they compute.  In C++ a pointer into an array may
be at most one past its end, even if it is not dereferenced; `Verif.Model.Loops` has only the calls of `fn`.
-/
namespace Nda

/-- What a loop over values does: it calls `fn` with the elements at the pointers, or computes new pointers. -/
inductive LoopEvent (P : Type) where
  | call (p : P)
  | form (p : P)
deriving DecidableEq, Repr

/-- array.h:1441 `Ptr0 end = ptr0 + extent`, for the first pointer of a pack only. -/
class PtrEnd (P : Type) where
  endOf : P → Int → P

instance : PtrEnd Int where
  endOf p e := p + e

instance : PtrEnd (Int × Int) where
  endOf p e := (p.1 + e, p.2)

section
variable {P : Type} [PtrPack P] [PtrEnd P]

/-- array.h:1442-1444: `fn(*ptr0++, *ptrs++...)` increments the pointers before `fn` is called. -/
def denseEvents (e : Int) (p : P) : List (LoopEvent P) :=
  if PtrPack.ptr0 p < e then .form (PtrPack.inc p) :: .call p :: denseEvents e (PtrPack.inc p) else []
termination_by (e - PtrPack.ptr0 p).toNat
decreasing_by rw [PtrPack.ptr0_inc]; omega

/-- array.h:1454-1457, 1465-1469: `for (index_t i = 0; i < extent_d; i++) { body; advance<D>(ptrs...); }`. -/
def strideEvents (body : P → List (LoopEvent P)) (stride : P) : Nat → P → List (LoopEvent P)
  | 0, _ => []
  | n + 1, p => body p ++ .form (PtrPack.advance p stride) :: strideEvents body stride n (PtrPack.advance p stride)

/-- array.h:1438-1486, as `valueLoop`. -/
def valueEvents : List (Int × P) → P → List (LoopEvent P)
  | [], p => [.call p]
  | [(e, st)], p =>
    if PtrPack.allOne st then .form (PtrEnd.endOf p e) :: denseEvents (PtrPack.ptr0 p + e) p
    else strideEvents (fun q => [.call q]) st e.toNat p
  | (e, st) :: rest, p => strideEvents (valueEvents rest) st e.toNat p

end

/-- array.h:1692-1704 `for_each_value_in_order(shape, base, fn)`. -/
def Shape.inOrderEvents (s : Shape) (base : Option Int) : List (LoopEvent Int) :=
  match base with
  | none => []
  | some b => valueEvents (s.map fun d => (d.extent, d.stride)).reverse b

/-- array.h:1895-1899 `shape_traits<Shape>::for_each_value`. -/
def Shape.valueEvents (s : Shape) (base : Option Int) : List (LoopEvent Int) :=
  (optimizeShape s).inOrderEvents base

/-- array.h:1714-1730 `for_each_value_in_order(shape, shape_a, base_a, shape_b, base_b, fn)`. -/
def Shape.inOrderEvents2 (s sa : Shape) (baseA : Option Int) (sb : Shape) (baseB : Option Int) : List (LoopEvent (Int × Int)) :=
  match baseA, baseB with
  | some a, some b =>
    let a := a + sa.flatOffset s.mins
    let b := b + sb.flatOffset s.mins
    .form (a, b) :: Nda.valueEvents (List.zip s.extents (List.zip sa.strides sb.strides)).reverse (a, b)
  | _, _ => []

/-- array.h:1914-1924 `copy_shape_traits<ShapeSrc, ShapeDst>::for_each_value`. -/
def copyEvents (src : Shape) (srcBase : Option Int) (dst : Shape) (dstBase : Option Int) : List (LoopEvent (Int × Int)) :=
  let o := optimizeCopyShapes src dst
  Shape.inOrderEvents2 o.2 o.1 srcBase o.2 dstBase

end Nda
