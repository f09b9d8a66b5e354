import Verif.Model.Static
/-
Model of the shape types of image.h and matrix.h and of constructing them from intervals.
-/
namespace Nda

/-- array.h:423-424, 1123-1125 `shape(dims...)` where each dim is given as `{min, extent}`: its stride is the one of
the type, or unresolved.  `{}` for a dim with static extent and `n` for `{0, n}` are the same (array.h:425-426). -/
def shapeOfIntervals (ts : List DimT) (vs : List Interval) : Shape :=
  List.zipWith (fun t v => t.make v.min v.extent t.defaultStride) ts vs

/-- The assertions of the constructors of the dims. -/
def shapeOfIntervalsAssert (ts : List DimT) (vs : List Interval) : Bool :=
  (List.zipWith (fun t v => t.makeAssert v.min v.extent t.defaultStride) ts vs).all id

/-- image.h:28 `image_shape`. -/
def imageShape : List DimT := [⟨dynamic, dynamic, dynamic⟩, ⟨dynamic, dynamic, dynamic⟩, ⟨dynamic, dynamic, dynamic⟩]

/-- image.h:41-42 `chunky_image_shape<Channels, XStride>`. -/
def chunkyImageShape (channels xStride : Int) : List DimT :=
  [⟨dynamic, dynamic, xStride⟩, ⟨dynamic, dynamic, dynamic⟩, ⟨0, channels, 1⟩]

/-- image.h:113 `planar_image_shape`. -/
def planarImageShape : List DimT :=
  [⟨dynamic, dynamic, 1⟩, ⟨dynamic, dynamic, dynamic⟩, ⟨dynamic, dynamic, dynamic⟩]

/-- matrix.h:30-31 `matrix_shape<Rows, Cols>`. -/
def matrixShape (rows cols : Int) : List DimT := [⟨dynamic, rows, dynamic⟩, ⟨dynamic, cols, 1⟩]

/-- matrix.h:43-44 `vector_shape<Length>`. -/
def vectorShape (length : Int) : List DimT := [⟨dynamic, length, 1⟩]

end Nda
