import Verif.Model.Array
import Verif.Model.Static
/-
Model of the operations that give the memory of an array another shape: `array::set_shape` and
`move_reinterpret_shape`.  They are only available for trivial element types.
-/
namespace Nda
variable {V : Type}

/-- array.h:2650-2656 `array::set_shape`. -/
def arraySetShape (ty : Types V) (this : Nat) (newShape : Shape) (offset : Int) (w : World V) :
    Except Fault (World V) := do
  let a ← w.get this
  let w ← assert ty newShape.isResolved w
  let w ← assert ty (newShape.isSubsetOf a.shape (-offset)) w
  .ok (w.setVar this (some { a with
    shape := newShape, base := a.base.map fun p => (p.1, p.2 + offset) }))

/-- array.h:3056-3061: the allocators of the result `n` and of `from`. -/
def reinterpretAllocators (ty : Types V) (n frm : Nat) (w : World V) : Except Fault (World V) :=
  if ty.propagateMove then swapAllocator n frm w
  else do
    let r ← w.get n
    let f ← w.get frm
    assert ty (r.alloc.eq f.alloc) w

/-- array.h:3045-3071 `move_reinterpret_shape(from, new_shape, offset)`.  The result is the new object
(number `w.nextVar`); `defaultNew` is `NewShape()`.  Adding an offset to a null pointer is undefined. -/
def moveReinterpretShape (ty : Types V) (defaultNew : Shape) (frm : Nat) (newShape : Shape)
    (offset : Int) (w : World V) : Except Fault (World V) := do
  let n := w.nextVar
  let f ← w.get frm
  let w ← assert ty (newShape.isSubsetOf f.shape offset) w
  let w ← newDefault { ty with defaultShape := defaultNew } w
  let w ← reinterpretAllocators ty n frm w
  let r ← w.get n
  let f ← w.get frm
  let w ← check .null (f.base.isSome || offset == 0) w
  let w := w.setVar n (some { f with
    alloc := r.alloc, shape := newShape, base := f.base.map fun p => (p.1, p.2 + offset) })
  .ok (w.setVar frm (some { r with alloc := f.alloc, shape := ty.defaultShape }))

/-- array.h:3072-3077 `move_reinterpret_shape<NewShape>(from, offset)`: the shape of `from` converted to the type
`NewShape`, whose dims have the types `ts`. -/
def moveReinterpretConvert (ty : Types V) (defaultNew : Shape) (ts : List DimT) (frm : Nat) (offset : Int)
    (w : World V) : Except Fault (World V) := do
  let f ← w.get frm
  let w ← assert ty (convertShapeAssert ts f.shape) w
  moveReinterpretShape ty defaultNew frm (convertShape ts f.shape) offset w

end Nda
