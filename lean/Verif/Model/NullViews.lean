import Verif.Model.Algorithms
/-
The assertions on null pointers in the algorithms on array_refs (array.h:1692-1730), which `Verif.Model.Algorithms` leaves
out: an array_ref whose base is null must have no elements.
-/
namespace Nda

/-- array.h:2104-2107 `array_ref::for_each_value`, 1895-1899, and so `fill` (2905-2908) and `generate` (2917-2920): the
assertion of 1697, for the optimized shape. -/
def ArrayRef.forEachValueAssert (a : ArrayRef) : Bool := (optimizeShape a.shape).forEachValueInOrderAssert a.base

/-- array.h:1914-1924 `copy_shape_traits::for_each_value`: the assertion of 1720, for the optimized shape of the
destination. -/
def copyForEachValueAssert (src : Shape) (srcBase : Option Int) (dst : Shape) (dstBase : Option Int) : Bool :=
  (optimizeCopyShapes src dst).2.forEachValueInOrder2Assert srcBase dstBase

/-- array.h:2763-2772 `copy` and 2834-2843 `move`: all assertions. -/
def copyAsserts (src dst : ArrayRef) : Bool :=
  copyAssert src.shape dst.shape &&
    (dst.shape.empty || copyForEachValueAssert src.shape src.base dst.shape dst.base)

/-- array.h:2956-2968 `equal`: all assertions. -/
def equalAsserts (a b : ArrayRef) : Bool :=
  if a.shape.mins ≠ b.shape.mins ∨ a.shape.extents ≠ b.shape.extents then true
  else copyForEachValueAssert a.shape a.base b.shape b.base

/-- array.h:2182-2195 `operator!=` and `operator==` of array_refs: all assertions. -/
def ArrayRef.eqAsserts (a b : ArrayRef) : Bool :=
  if a.shape ≠ b.shape then true else copyForEachValueAssert a.shape a.base b.shape b.base

end Nda
