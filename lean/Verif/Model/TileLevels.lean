import Verif.Model.Tiling
/-
Loops over tiles inside of tiles, for example for two levels of a cache:

  for (auto yo : split(a.y(), n)) for (auto xo : split<N>(a.x())) {
    auto tile = a(xo, yo, _);
    for (auto yi : split(tile.y(), m)) for (auto xi : split<M>(tile.x())) { auto inner = tile(xi, yi, _); … }
  }
-/
namespace Nda

/-- The intervals that the loop over one interval produces: `split(v, n)` (array.h:637-642), `split<N>(v)` (array.h:614-620) or no
loop; `none` = never ends. -/
def Cut.split (c : Cut) (v : Interval) : Option (List Interval) :=
  match c with
  | .keep => some [v]
  | .dyn n => (splitDynamic v n).iterate
  | .fixed N => (splitStatic N v).iterate

/-- `for (auto v1 : split(v, …)) for (auto v2 : split(v1, …)) …`: the intervals of the innermost loop. -/
def splitLevels : List Cut → Interval → Option (List Interval)
  | [], v => some [v]
  | c :: cs, v => do
    let l ← c.split v
    let ls ← l.mapM (splitLevels cs)
    pure ls.flatten

/-- The tiles of the innermost loops: each level splits the tiles of the one before (README.md:225-240 on `tile` instead of
`my_array`). -/
def tileLevels : List (List Cut) → ArrayRef → Option (List ArrayRef)
  | [], a => some [a]
  | cs :: rest, a => do
    let ts ← tileLoops cs a.shape
    let ls ← ts.mapM fun t => tileLevels rest (a.crop t)
    pure ls.flatten

section
variable {α : Type}

/-- The body `fill(inner, v)`. -/
def fillAll (l : List ArrayRef) (v : α) (m : Mem α) : Mem α := l.foldl (fun m r => fill r v m) m

/-- The body `copy(src, inner)`. -/
def copyAll (conv : α → α) (src : ArrayRef) (l : List ArrayRef) (m : Mem α) : Mem α := l.foldl (fun m r => copy conv src r m) m

/-- The body `inner.for_each_value([](T& x) { x = g(x); })`. -/
def updateAll (l : List ArrayRef) (g : α → α) (m : Mem α) : Mem α := l.foldl (fun m r => updateValues r g m) m

end
end Nda
