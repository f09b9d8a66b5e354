import Verif.Model.Array
/-
Model of comparing arrays and views of arrays in a program state (array.h:2182-2195, 2684-2688, 2956-2985).
A view of array `x` is an `array_ref` with shape `s` whose base pointer is `off` elements after the one of `x`;
with the shape of `x` and `off = 0` it is `x.cref()`.
-/
namespace Nda

section
variable {V : Type}

/-- array.h:1914-1924 `copy_shape_traits::for_each_value` with the function `if (a != b) { result = r; }`. -/
def compareValues (ty : Types V) (ne : V → V → Bool) (r : Bool) (s : Shape) (p : Ptr) (t : Shape) (q : Ptr)
    (w : World V) (result : Bool) : Except Fault Bool :=
  match p, q with
  | some (bs, os), some (bt, ot) =>
    (copyForEachValue s (some os) t (some ot)).foldlM (fun result k => do
      let u ← readAt w bs k.1
      let v ← readAt w bt k.2
      .ok (if ne u v then r else result)) result
  | _, _ => do
    let _ ← assert ty (optimizeCopyShapes s t).2.empty w
    .ok result

/-- array.h:2182-2194 `array_ref::operator!=`. -/
def refsNe (ty : Types V) (ne : V → V → Bool) (x : Nat) (s : Shape) (soff : Int) (y : Nat) (t : Shape) (toff : Int)
    (w : World V) : Except Fault Bool := do
  let a ← w.get x
  let o ← w.get y
  if s ≠ t then .ok true
  else compareValues ty ne true s (a.base.map fun p => (p.1, p.2 + soff)) t (o.base.map fun p => (p.1, p.2 + toff)) w false

/-- array.h:2195 `array_ref::operator==`. -/
def refsEq (ty : Types V) (ne : V → V → Bool) (x : Nat) (s : Shape) (soff : Int) (y : Nat) (t : Shape) (toff : Int)
    (w : World V) : Except Fault Bool := do
  let r ← refsNe ty ne x s soff y t toff w
  .ok (!r)

/-- array.h:2687 `array::operator!=`. -/
def arraysNe (ty : Types V) (ne : V → V → Bool) (x y : Nat) (w : World V) : Except Fault Bool := do
  let a ← w.get x
  let o ← w.get y
  refsNe ty ne x a.shape 0 y o.shape 0 w

/-- array.h:2688 `array::operator==`. -/
def arraysEq (ty : Types V) (ne : V → V → Bool) (x y : Nat) (w : World V) : Except Fault Bool := do
  let a ← w.get x
  let o ← w.get y
  refsEq ty ne x a.shape 0 y o.shape 0 w

/-- array.h:2956-2968 `equal(array_ref, array_ref)`. -/
def refsEqual (ty : Types V) (ne : V → V → Bool) (x : Nat) (s : Shape) (soff : Int) (y : Nat) (t : Shape) (toff : Int)
    (w : World V) : Except Fault Bool := do
  let a ← w.get x
  let o ← w.get y
  if s.mins ≠ t.mins ∨ s.extents ≠ t.extents then .ok false
  else compareValues ty ne false s (a.base.map fun p => (p.1, p.2 + soff)) t (o.base.map fun p => (p.1, p.2 + toff)) w true

/-- array.h:2969-2980 `equal` of arrays. -/
def arraysEqual (ty : Types V) (ne : V → V → Bool) (x y : Nat) (w : World V) : Except Fault Bool := do
  let a ← w.get x
  let o ← w.get y
  refsEqual ty ne x a.shape 0 y o.shape 0 w

end
end Nda
