import Verif.Model.Ref
/-
Model of the algorithms on array_refs: copy, move, fill, generate, transform_index, equal and
operator== (array.h:2182-2195, 2763-2980).  Memory maps addresses (in elements) to values;
the element types `TSrc` and `TDst` share the value type `α`, `conv` is the conversion made by
the assignment `dst = src`.
-/
namespace Nda

/-- Contents of memory. -/
abbrev Mem (α : Type) := Int → α

/-- Assignment through a pointer. -/
def Mem.set {α : Type} (m : Mem α) (a : Int) (v : α) : Mem α := fun x => if x = a then v else m x

section
variable {α : Type}

/-- array.h:1421-1424 `internal::copy_assign`: `dst = src`. -/
def copyAssign (conv : α → α) (m : Mem α) (p : Int × Int) : Mem α := m.set p.2 (conv (m p.1))

/-- array.h:1416-1419 `internal::move_assign`: `dst = std::move(src)`; `moved v` is what is left
of a moved-from value `v`. -/
def moveAssign (conv moved : α → α) (m : Mem α) (p : Int × Int) : Mem α :=
  (m.set p.1 (moved (m p.1))).set p.2 (conv (m p.1))

/-- array.h:2763-2772 `copy(array_ref, array_ref)`: the (source, destination) addresses touched. -/
def copyTrace (src dst : ArrayRef) : List (Int × Int) :=
  if dst.shape.empty then [] else copyForEachValue src.shape src.base dst.shape dst.base

/-- array.h:2763-2772 `copy(array_ref, array_ref)`. -/
def copy (conv : α → α) (src dst : ArrayRef) (m : Mem α) : Mem α :=
  (copyTrace src dst).foldl (copyAssign conv) m

/-- The assertion of array.h:2768 and 2839 (evaluated only for a non-empty `dst`). -/
def copyAssert (src dst : Shape) : Bool :=
  dst.empty || (src.isInRange dst.mins && src.isInRange dst.maxs)

/-- array.h:2834-2843 `move(array_ref, array_ref)`. -/
def move (conv moved : α → α) (src dst : ArrayRef) (m : Mem α) : Mem α :=
  (copyTrace src dst).foldl (moveAssign conv moved) m

/-- array.h:2905-2908 `fill`. -/
def fill (dst : ArrayRef) (value : α) (m : Mem α) : Mem α :=
  dst.forEachValue.foldl (fun m a => m.set a value) m

/-- array.h:2917-2920 `generate`.  The generator may have external state `σ`. -/
def generate {σ : Type} (dst : ArrayRef) (g : σ → α × σ) (st : σ × Mem α) : σ × Mem α :=
  dst.forEachValue.foldl (fun st a => let r := g st.1; (r.2, st.2.set a r.1)) st

/-- array.h:2930-2935 `transform_index`; `none` when the index loop does not terminate or the
base is null and an element is assigned. -/
def transformIndex (dst : ArrayRef) (fn : Index → α) (m : Mem α) : Option (Mem α) := do
  let tr ← dst.shape.forEachIndex
  tr.foldlM (fun m i => do
    let a ← dst.at_ i
    pure (m.set a (fn i))) m

/-- array.h:2956-2968 `equal`; `ne` is the element comparison `a != b`. -/
def equal (ne : α → α → Bool) (m : Mem α) (a b : ArrayRef) : Bool :=
  if a.shape.mins ≠ b.shape.mins ∨ a.shape.extents ≠ b.shape.extents then false
  else (copyForEachValue a.shape a.base b.shape b.base).foldl
    (fun result p => if ne (m p.1) (m p.2) then false else result) true

/-- array.h:2182-2194 `array_ref::operator!=`; 1312-1319, 488-494 compare the shapes. -/
def ArrayRef.ne (ne : α → α → Bool) (m : Mem α) (a b : ArrayRef) : Bool :=
  if a.shape ≠ b.shape then true
  else (copyForEachValue a.shape a.base b.shape b.base).foldl
    (fun result p => if ne (m p.1) (m p.2) then true else result) false

/-- array.h:2195 `array_ref::operator==`. -/
def ArrayRef.eq (ne : α → α → Bool) (m : Mem α) (a b : ArrayRef) : Bool := !(a.ne ne m b)

end
end Nda
