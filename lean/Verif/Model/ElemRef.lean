import Verif.Model.Array
/-
The functions of array.h that take a value as `const T&`, called with an element of an array: `x.assign(shape, y(i...))`,
`array(shape, y(i...), alloc)` and `fill(x, y(i...))`.  `Verif.Model.Array` has the value itself in its place; here it is read when the
C++ code reads it.
-/
namespace Nda

section
variable {V : Type}

/-- `&y(i...)`: the block and offset of an element, array.h:2542-2556. -/
def elemAddr (w : World V) (y : Nat) (i : Index) : Except Fault (Nat × Int) := do
  let a ← w.get y
  match a.base with
  | none => .error .null
  | some (b, o) => .ok (b, o + a.shape.flatOffset i)

/-- array.h:2298-2301 `construct(const T& init)`. -/
def constructRef (ty : Types V) (this : Nat) (init : Nat × Int) (w : World V) : Except Fault (World V) := do
  let a ← w.get this
  let w ← assert ty (a.base.isSome || a.shape.empty) w
  match a.base with
  | none => assert ty ((optimizeShape a.shape).forEachValueInOrderAssert none) w
  | some (b, o) => (a.shape.forEachValue (some o)).foldlM (fun w p => copyConstructAt init.1 b (init.2, p) w) w

/-- array.h:2527-2537 `assign(Shape shape, const T& value)`. -/
def assignFillRef (ty : Types V) (this : Nat) (shape : Shape) (value : Nat × Int) (w : World V) : Except Fault (World V) := do
  let a ← w.get this
  let shape := shape.resolve
  let w ← if a.shape = shape then destroy ty this w
    else do
      let w ← deallocate ty this w
      let w ← setShapeMember this shape w
      allocate ty this w
  constructRef ty this value w

/-- `x.assign(shape, y(i...))`. -/
def assignElem (ty : Types V) (x : Nat) (shape : Shape) (y : Nat) (i : Index) (w : World V) : Except Fault (World V) := do
  let p ← elemAddr w y i
  assignFillRef ty x shape p w

/-- array.h:2358-2361 `array(shape, y(i...), alloc)`. -/
def newElemAlloc (ty : Types V) (shape : Shape) (y : Nat) (i : Index) (alloc : Nat) (w : World V) : Except Fault (World V) := do
  let p ← elemAddr w y i
  let n := w.nextVar
  let w ← newAlloc ty alloc w
  assignFillRef ty n shape p w

/-- array.h:2905-2912 `fill(ref, y(i...))`: the lambda captures a copy of `value`. -/
def fillElem (ty : Types V) (x : Nat) (s : Shape) (off : Int) (y : Nat) (i : Index) (w : World V) : Except Fault (World V) := do
  let p ← elemAddr w y i
  let v ← readAt w p.1 p.2
  forEachRef ty x s off (fun _ _ => v) w

end

end Nda
