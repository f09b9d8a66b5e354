import Verif.Model.Loops
/-
Model of the loops over values (array.h:1438-1486) that also records which calls of `fn` are made inside of one call of
`for_each_value_in_order_inner_dense` (array.h:1438-1445).  The pointers this function gets are declared `NDARRAY_RESTRICT`
(`__restrict__`, array.h:65-69, 1440), which promises the compiler something about the elements accessed until it returns.
-/
namespace Nda

/-- The calls of `fn` made by one call of the inner loop for dense dims, or one call of `fn` made elsewhere. -/
inductive LoopGroup (P : Type) where
  | dense (l : List P)
  | single (p : P)
deriving DecidableEq, Repr

section
variable {P : Type} [PtrPack P]

/-- array.h:1454-1457, 1465-1469, as `strideLoop`. -/
def strideGroups (body : P → List (LoopGroup P)) (stride : P) : Nat → P → List (LoopGroup P)
  | 0, _ => []
  | n + 1, p => body p ++ strideGroups body stride n (PtrPack.advance p stride)

/-- array.h:1447-1486, as `valueLoop`. -/
def valueGroups : List (Int × P) → P → List (LoopGroup P)
  | [], p => [.single p]
  | [(e, st)], p =>
    if PtrPack.allOne st then [.dense (denseLoop (PtrPack.ptr0 p + e) p)]
    else strideGroups (fun q => [.single q]) st e.toNat p
  | (e, st) :: rest, p => strideGroups (valueGroups rest) st e.toNat p

end

/-- array.h:1714-1730 `for_each_value_in_order(shape, shape_a, base_a, shape_b, base_b, fn)`. -/
def Shape.inOrderGroups2 (s sa : Shape) (baseA : Option Int) (sb : Shape) (baseB : Option Int) : List (LoopGroup (Int × Int)) :=
  match baseA, baseB with
  | some a, some b =>
    let a := a + sa.flatOffset s.mins
    let b := b + sb.flatOffset s.mins
    valueGroups (List.zip s.extents (List.zip sa.strides sb.strides)).reverse (a, b)
  | _, _ => []

/-- array.h:1914-1924 `copy_shape_traits<ShapeSrc, ShapeDst>::for_each_value`. -/
def copyGroups (src : Shape) (srcBase : Option Int) (dst : Shape) (dstBase : Option Int) : List (LoopGroup (Int × Int)) :=
  let o := optimizeCopyShapes src dst
  Shape.inOrderGroups2 o.2 o.1 srcBase o.2 dstBase

end Nda
