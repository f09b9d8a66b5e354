import Verif.Model.Algorithms
import Verif.Model.Image
/-
Model of what the loops and algorithms do with the function object they are given: whether it is
called where it is, or moved into a closure first (array.h:1887-1899, 1943-1972, 2104-2107,
2917-2954; matrix.h:75-84; image.h:73-82, 92-106).  The sequences of indices and addresses are those of
`Model/Loops.lean`, `Model/Image.lean` and `Model/Ref.lean`.

`X` is everything a function object can reach outside itself.  `none` stands for undefined behaviour
in the function object or in the loop, or a loop that does not end.
-/
namespace Nda

/-- A class `F` of function objects. -/
structure Callable (F A R X : Type) where
  /-- the call operator: the result, the object and the outside afterwards -/
  call : F → A → X → Option (R × F × X)
  /-- the move constructor: the new object, and what is left of the old one -/
  take : F → F × F
  /-- the copy constructor -/
  dup : F → F

namespace Callable
variable {F A R X : Type}

/-- The init-capture `fn = std::move(fn)` (array.h:1954, 1962, 1969, 2919, 2934, 2948; matrix.h:83;
image.h:81).  The parameter is a forwarding reference; if it refers to a const object then
`std::move(fn)` can only be copied.  The first component is in the closure, the second is what the
caller still has. -/
def capture (c : Callable F A R X) (const : Bool) (f : F) : F × F :=
  if const then (c.dup f, f) else c.take f

/-- A loop that calls the object with one argument after the other; the results are dropped. -/
def run (c : Callable F A R X) : List A → F → X → Option (F × X)
  | [], f, x => some (f, x)
  | a :: l, f, x => do
    let r ← c.call f a x
    run c l r.2.1 r.2.2

/-- A closure whose only capture (with state) is `fn`, and whose body calls `fn` once, with an
argument made from that of the closure.  Its implicit move and copy constructors are those of the
capture. -/
def onArg {B : Type} (c : Callable F A R X) (arg : B → Option A) : Callable F B R X where
  call f b x := do
    let a ← arg b
    c.call f a x
  take := c.take
  dup := c.dup

/-- A closure whose body assigns the result of `fn` to an element: `i = g()` and
`dst[idx] = fn(idx)` (array.h:2919, 2934).  `X` has the memory as second component. -/
def assigning {B σ : Type} (c : Callable F A R (σ × Mem R)) (arg : B → A) (addr : B → Option Int) :
    Callable F B Unit (σ × Mem R) where
  call f b x := do
    let r ← c.call f (arg b) x
    let a ← addr b
    pure ((), r.2.1, r.2.2.1, r.2.2.2.set a r.1)
  take := c.take
  dup := c.dup

end Callable

/-- Which `shape_traits` class a shape selects: the default one (array.h:1880-1900), that of matrices
(matrix.h:70-85), that of chunky images with and without a pixel stride of their own
(image.h:68-83, 85-107). -/
inductive TraitsKind where
  | dflt
  | matrix
  | padded
  | chunky
deriving DecidableEq, Repr, Inhabited

section
variable {F R X : Type}

/-- The indices of `shape_traits::for_each_index`: array.h:1887-1890, matrix.h:75-78,
image.h:73-76, 90-93. -/
def TraitsKind.indices (k : TraitsKind) (s : Shape) : Option (List Index) :=
  match k with
  | .dflt => s.forEachIndex
  | .matrix => matrixForEachIndex s
  | .padded => forEachImageIndex s
  | .chunky => forEachImageIndex s

/-- array.h:1943-1948 `for_each_index`: all traits pass a reference to `fn` down to the innermost
loop.  The result is the caller's object and the outside. -/
def forEachIndexFn (k : TraitsKind) (c : Callable F Index R X) (s : Shape) (f : F) (x : X) :
    Option (F × X) := do
  let l ← k.indices s
  c.run l f x

/-- array.h:1949-1955 `for_all_indices`. -/
def forAllIndicesFn (k : TraitsKind) (c : Callable F Index R X) (s : Shape) (const : Bool) (f : F)
    (x : X) : Option (F × X) := do
  let g := c.capture const f
  let r ← forEachIndexFn k (c.onArg some) s g.1 x
  pure (g.2, r.2)

/-- array.h:1956-1963 `for_each_index<LoopOrder...>` and 1964-1972 `for_all_indices<LoopOrder...>`. -/
def forEachIndexOrderedFn (c : Callable F Index R X) (order : List Nat) (s : Shape) (const : Bool)
    (f : F) (x : X) : Option (F × X) := do
  let g := c.capture const f
  let l ← Shape.forEachIndex (Shape.reorder order s)
  let r ← (c.onArg fun i => some (unshuffle order i)).run l g.1 x
  pure (g.2, r.2)

/-- array.h:2104-2107, 2577-2584 `for_each_value`, with `shape_traits::for_each_value`: the default
traits (array.h:1895-1899) and those of chunky images (image.h:97-106) pass a reference to `fn` down to
the innermost loop, the other ones (matrix.h:80-84, image.h:78-82) move it into a closure. -/
def forEachValueFn (k : TraitsKind) (c : Callable F Int R X) (a : ArrayRef) (const : Bool) (f : F)
    (x : X) : Option (F × X) :=
  match k with
  | .dflt => c.run a.forEachValue f x
  | .chunky => do
    let l ← chunkyForEachValue a.shape a.base
    c.run l f x
  | .matrix => do
    let g := c.capture const f
    let l ← forEachMatrixIndex a.shape
    let r ← (c.onArg fun i => a.base.map fun b => b + a.shape.flatOffset i).run l g.1 x
    pure (g.2, r.2)
  | .padded => do
    let g := c.capture const f
    let l ← forEachImageIndex a.shape
    let r ← (c.onArg fun i => a.base.map fun b => b + a.shape.flatOffset i).run l g.1 x
    pure (g.2, r.2)

/-- array.h:2917-2926 `generate`: the closure is a temporary, and moved once more by the traits that
move. -/
def generateFn {σ : Type} (k : TraitsKind) (c : Callable F Unit R (σ × Mem R)) (dst : ArrayRef)
    (const : Bool) (f : F) (x : σ × Mem R) : Option (F × (σ × Mem R)) := do
  let g := c.capture const f
  let r ← forEachValueFn k (c.assigning (fun _ => ()) some) dst false g.1 x
  pure (g.2, r.2)

/-- array.h:2930-2940 `transform_index`. -/
def transformIndexFn {σ : Type} (k : TraitsKind) (c : Callable F Index R (σ × Mem R))
    (dst : ArrayRef) (const : Bool) (f : F) (x : σ × Mem R) : Option (F × (σ × Mem R)) := do
  let g := c.capture const f
  let r ← forEachIndexFn k (c.assigning id dst.at_) dst.shape g.1 x
  pure (g.2, r.2)

/-- array.h:2944-2954 `transform_indices`: the closure is a temporary, which `transform_index` moves
into its own closure. -/
def transformIndicesFn {σ : Type} (k : TraitsKind) (c : Callable F Index R (σ × Mem R))
    (dst : ArrayRef) (const : Bool) (f : F) (x : σ × Mem R) : Option (F × (σ × Mem R)) := do
  let g := c.capture const f
  let r ← transformIndexFn k (c.onArg some) dst false g.1 x
  pure (g.2, r.2)

end
end Nda
