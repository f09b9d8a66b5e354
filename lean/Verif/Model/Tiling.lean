import Verif.Model.Split
import Verif.Model.Algorithms
/-
Loops over tiles of an array, as README.md:225-240 writes them:

  for (auto yo : split(a.y(), n)) for (auto xo : split<N>(a.x())) { auto tile = a(xo, yo, _); … }

Each dim is split by a run-time factor, split by a compile-time factor, or kept (`_`).
-/
namespace Nda

/-- What is done to one dim by the loops. -/
inductive Cut where
  /-- the argument `_`, no loop -/
  | keep
  /-- `for (auto v : split(d, n))`, array.h:637-642 -/
  | dyn (n : Int)
  /-- `for (auto v : split<N>(d))`, array.h:614-620 -/
  | fixed (N : Int)
deriving DecidableEq, Repr

/-- The arguments for `operator()` that the loop over one dim produces; `none` = never ends. -/
def Cut.args (c : Cut) (d : Dim) : Option (List Arg) :=
  match c with
  | .keep => some [.all]
  | .dyn n => (splitDynamic ⟨d.min, d.extent⟩ n).iterate.map (·.map .ivl)
  | .fixed N => (splitStatic N ⟨d.min, d.extent⟩).iterate.map (·.map .ivl)

/-- The nested loops of README.md:231-240, the first dim in the innermost one: the arguments of the
successive calls of `my_array(xo, yo, _)`. -/
def tileLoops : List Cut → Shape → Option (List (List Arg))
  | c :: cs, d :: s => do
    let outer ← tileLoops cs s
    let inner ← outer.mapM fun as => do
      let l ← c.args d
      pure (l.map (· :: as))
    pure inner.flatten
  | _, _ => some [[]]

section
variable {α : Type}

/-- The body `fill(a(xo, yo, _), v)`. -/
def fillTiles (a : ArrayRef) (ts : List (List Arg)) (v : α) (m : Mem α) : Mem α :=
  ts.foldl (fun m t => fill (a.crop t) v m) m

/-- The body `transform_index(a(xo, yo, _), fn)`. -/
def transformIndexTiles (a : ArrayRef) (ts : List (List Arg)) (fn : Index → α) (m : Mem α) : Option (Mem α) :=
  ts.foldlM (fun m t => transformIndex (a.crop t) fn m) m

/-- The body `copy(src, dst(xo, yo, _))`. -/
def copyTiles (conv : α → α) (src dst : ArrayRef) (ts : List (List Arg)) (m : Mem α) : Mem α :=
  ts.foldl (fun m t => copy conv src (dst.crop t) m) m

/-- The body `copy(src(xo, yo, _), dst(xo, yo, _))`. -/
def copyTilesBoth (conv : α → α) (src dst : ArrayRef) (ts : List (List Arg)) (m : Mem α) : Mem α :=
  ts.foldl (fun m t => copy conv (src.crop t) (dst.crop t) m) m

/-- `a.for_each_value([](T& x) { x = g(x); })`, array.h:2101-2107. -/
def updateValues (a : ArrayRef) (g : α → α) (m : Mem α) : Mem α :=
  a.forEachValue.foldl (fun m x => m.set x (g (m x))) m

/-- The body `a(xo, yo, _).for_each_value([](T& x) { x = g(x); })`. -/
def updateTiles (a : ArrayRef) (ts : List (List Arg)) (g : α → α) (m : Mem α) : Mem α :=
  ts.foldl (fun m t => updateValues (a.crop t) g m) m

/-- Comparing two arrays tile by tile: `if (!equal(a(xo, yo, _), b(xo, yo, _))) result = false;`. -/
def equalTiles (ne : α → α → Bool) (m : Mem α) (a b : ArrayRef) (ts : List (List Arg)) : Bool :=
  ts.foldl (fun r t => if equal ne m (a.crop t) (b.crop t) then r else false) true

end
end Nda
