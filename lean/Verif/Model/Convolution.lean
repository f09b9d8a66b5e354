import Verif.Model.LinearAlgebra
/-
Model of examples/linear_algebra/conv2d_relu.cpp: the two versions of a convolution followed by a ReLU.

All values live in one memory.  The parameters `tileX` and `tileCo` stand for the constants `tile_x = 4` and
`tile_co = 3 * 32 / sizeof(T)`.  `none`: an assertion fails, an element out of the range of a view is used, a
null pointer is dereferenced, or a loop does not end.
Simplification: dims are given by their values only.
-/
namespace Nda

namespace ArrayRef

/-- array.h:1203-1209, 2123-2129 `a.dim<k>()`, as an interval. -/
def axis (a : ArrayRef) (k : Nat) : Interval := (a.shape.getD k ⟨0, 0, 0⟩).toInterval

/-- array.h:2083-2086 `a(i...)` for indices in range: the address. -/
def element (a : ArrayRef) (i : Index) : Option Int := if a.shape.isInRange i then a.at_ i else none

end ArrayRef

section
variable {F : Type} (o : ScalarOps F)

/-- `std::max(a, b)`. -/
def stdMax (a b : F) : F := if o.lt a b then b else a

/-- `c = f(c)` for the address `c` of an element. -/
def updateAt (c : Option Int) (f : F → F) (m : Mem F) : Option (Mem F) := do
  let c ← c
  pure (m.set c (f (m c)))

/-- conv2d_relu.cpp:32-34, 72-74: the loops over `ci`, `dy` and `dx`. -/
def forFilter (filter : ArrayRef) (body : Int → Int → Int → Mem F → Option (Mem F)) (m : Mem F) : Option (Mem F) :=
  forRange (filter.axis 3) (fun m ci =>
    forRange (filter.axis 2) (fun m dy =>
      forRange (filter.axis 1) (fun m dx => body ci dy dx m) m) m) m

/-- conv2d_relu.cpp:23-46 `conv2d_naive`. -/
def convNaive (input filter bias output : ArrayRef) (m : Mem F) : Option (Mem F) :=
  forRange (output.axis 3) (fun m n =>
    forRange (output.axis 2) (fun m y =>
      forRange (output.axis 1) (fun m x =>
        forRange (output.axis 0) (fun m co => do
          let m ← copyAt (output.element [co, x, y, n]) (bias.element [co]) m
          let m ← forFilter filter (fun ci dy dx =>
            mulAddAt o (output.element [co, x, y, n]) (filter.element [co, dx, dy, ci])
              (input.element [ci, x + dx, y + dy, n])) m
          updateAt (output.element [co, x, y, n]) (fun v => stdMax o v o.zero) m) m) m) m) m

/-- conv2d_relu.cpp:69-71 `fill(output_tile(co, _), bias(co))` for all `co`. -/
def fillTile (bias tile : ArrayRef) (coo : Interval) (m : Mem F) : Option (Mem F) :=
  forRange coo (fun m co => do
    let b ← bias.element [co]
    pure (fill (tile.crop [.idx co, .all]) (m b) m)) m

/-- conv2d_relu.cpp:65-89: the body of the loops over tiles. -/
def convTile (input filter bias output : ArrayRef) (n y : Int) (xo coo : Interval) (m : Mem F) : Option (Mem F) := do
  let tile := output.crop [.ivl coo, .ivl xo, .idx y, .idx n]
  let m ← fillTile bias tile coo m
  let m ← forFilter filter (fun ci dy dx m =>
    forRange xo (fun m x =>
      forRange coo (fun m co => mulAddAt o (tile.element [co, x]) (filter.element [co, dx, dy, ci])
        (input.element [ci, x + dx, y + dy, n]) m) m) m) m
  forRange xo (fun m x =>
    forRange coo (fun m co => updateAt (tile.element [co, x]) (fun v => stdMax o o.zero v) m) m) m

/-- conv2d_relu.cpp:48-94 `conv2d_tiled`. -/
def convTiled (debug : Bool) (tileX tileCo : Int) (input filter bias output : ArrayRef) (m : Mem F) :
    Option (Mem F) :=
  forRange (output.axis 3) (fun m n =>
    forRange (output.axis 2) (fun m y => do
      requireAssert debug (splitStaticAssert tileX (output.axis 1))
      let xs ← (splitStatic tileX (output.axis 1)).iterate
      xs.foldlM (fun m xo => do
        requireAssert debug (splitStaticAssert tileCo (output.axis 0))
        let cos ← (splitStatic tileCo (output.axis 0)).iterate
        cos.foldlM (fun m coo => convTile o input filter bias output n y xo coo m) m) m) m) m

end
end Nda
