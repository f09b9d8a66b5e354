import Verif.Model.Static
/-
The expectations of the repository's own tests of shapes (test/shape.cpp, test/shuffle.cpp, test/sort.cpp),
evaluated on the model.  These are tests of the model, not proofs: they show that the model agrees with what the
authors of the code expect of it.
-/
namespace Nda.Check

/-- `dim<>(extent)`. -/
def ext (e : Int) : Dim := ⟨0, e, unresolved⟩

/-- `dim<>(min, extent)`. -/
def rng (m e : Int) : Dim := ⟨m, e, unresolved⟩

/-- Elements of an `Option` list, with a marker for a loop that does not end. -/
def run {α : Type} (l : Option (List α)) : List α := l.getD []

/-! ### shape.cpp:24-83 -/

#guard Shape.flatExtent [] = 1 ∧ Shape.size [] = 1 ∧ Shape.flatOffset [] [] = 0 ∧ Shape.bounds [] = []
#guard [1, 2, 10].all fun st => (run (Dim.iterate ⟨0, 10, st⟩)).all fun i => Shape.flatOffset [⟨0, 10, st⟩] [i] == i * st
#guard (run (Dim.iterate ⟨0, 5, 10⟩)).all fun i => (run (Dim.iterate ⟨0, 10, 1⟩)).all fun j =>
  Shape.flatOffset [⟨0, 10, 1⟩, ⟨0, 5, 10⟩] [j, i] == i * 10 + j
#guard let s : Shape := [⟨0, 10, 1⟩, ⟨0, 5, -10⟩]
  let offs := (run s.forEachIndex).map s.flatOffset
  s.size = 50 ∧ s.flatExtent = 50 ∧ offs.min? = some s.flatMin ∧ offs.max? = some s.flatMax
#guard Shape.strides (Shape.resolve [ext 10, ext 5, ⟨0, 3, -1⟩]) = [3, 30, -1]

/-! ### shape.cpp:85-120 -/

#guard Shape.resolve [⟨0, 10, 1⟩, ext 5] = [⟨0, 10, 1⟩, ⟨0, 5, 10⟩]
#guard Shape.resolve [⟨0, 10, 1⟩, ext 5, ext 20] = [⟨0, 10, 1⟩, ⟨0, 5, 10⟩, ⟨0, 20, 50⟩]

/-! ### shape.cpp:122-207 -/

/-- `test_all_unknown_strides<rank>`. -/
def allUnknown (rank : Nat) : Bool :=
  let ds := (List.range rank).map fun d : Nat => ext d
  let strides := (List.range rank).map fun d : Nat =>
    ((List.range d).map fun e : Nat => max 1 (e : Int)).foldl (· * ·) 1
  Shape.resolve ds == Shape.resolve (List.zipWith (fun (d : Dim) s => { d with stride := s }) ds strides)

/-- `test_one_dense_stride<rank>`. -/
def oneDense (rank : Nat) : Bool :=
  (List.range rank).all fun known =>
    let ds := (List.range rank).map fun d : Nat =>
      (⟨0, d + 1, if d = known then 1 else unresolved⟩ : Dim)
    let s := Shape.resolve ds
    s.size == ((List.range rank).map (· + 1)).foldl (· * ·) 1 && (s.getD known default).stride == 1 &&
      s.isCompact && s.isOneToOne

#guard Shape.strides (Shape.resolve [rng 3 5]) = [1]
#guard Shape.strides (Shape.resolve [ext 5, ext 10]) = [1, 5]
#guard Shape.strides (Shape.resolve [ext 1, ext 1, ⟨0, 2, 1⟩]) = [2, 2, 1]
#guard Shape.strides (Shape.resolve [ext 1, ⟨0, 2, 1⟩, ext 1]) = [2, 1, 2]
#guard Shape.strides (Shape.resolve [ext 1, ext 10, ⟨0, 2, 1⟩]) = [2, 2, 1]
#guard Shape.strides (Shape.resolve [ext 5, ⟨0, 2, 1⟩, ext 1]) = [2, 1, 10]
#guard Shape.strides (Shape.resolve [ext 5, ⟨0, 4, 20⟩, ⟨0, 3, 1⟩]) = [3, 20, 1]
#guard Shape.strides (Shape.resolve [ext 5, ⟨0, 4, 15⟩, ⟨0, 3, 1⟩]) = [3, 15, 1]
#guard Shape.strides (Shape.resolve [ext 5, ⟨0, 4, 14⟩, ⟨0, 3, 1⟩]) = [56, 14, 1]
#guard (List.range 10).all fun r => allUnknown (r + 1) && oneDense (r + 1)

/-! ### shape.cpp:209-250 -/

#guard Shape.bounds (Shape.resolve [⟨0, 10, unresolved⟩, ⟨-2, 12, 1⟩]) =
  [⟨0, 10, unresolved⟩, ⟨-2, 12, unresolved⟩]
#guard (List.range 10).all fun i => (List.range 10).all fun j =>
  Shape.flatOffset [⟨0, 10, 1⟩, DimT.default_ ⟨dynamic, dynamic, 0⟩] [j, i] == j
#guard (List.range 30).all fun n =>
  let i : Int := n - 10
  clamp i (Dim.min ⟨5, 10, 1⟩) (Dim.max ⟨5, 10, 1⟩) == max (min i 14) 5

/-! ### shape.cpp:252-398 -/

/-- The offsets in the order in which a loop visits them are `0, 1, …, n - 1`. -/
def inOrder (s : Shape) (l : Option (List Index)) (n : Nat) : Bool :=
  (run l).map s.flatOffset == (List.range n).map fun k : Nat => (k : Int)

#guard (run (Shape.forEachIndex [])).length = 1
#guard let s : Shape := [⟨0, 20, 1⟩]; inOrder s s.forEachIndex 20
#guard let s := Shape.resolve [⟨0, 10, 1⟩, ext 4]; inOrder s s.forEachIndex 40
#guard let s := Shape.resolve [⟨0, 3, 1⟩, ext 5, ext 8]; inOrder s s.forEachIndex 120
#guard let s := Shape.resolve [ext 3, ext 5, ⟨0, 8, 1⟩]; inOrder s (s.forEachIndexOrdered [2, 0, 1]) 120
#guard let s := Shape.resolve [ext 3, ext 5, ⟨0, 8, 1⟩]
  (run (s.forEachIndexOrdered [0, 1])).map (fun i => s.flatOffset (i ++ [0])) =
    (List.range 15).map fun k : Nat => 8 * (k : Int)

/-! ### shape.cpp:400-448 -/

#guard let x := rng 2 5
  ([2, 3, 4, 5, 6].all fun i => x.isInRange i) ∧ ¬ x.isInRange 1 ∧ ¬ x.isInRange 8 ∧ x.isInRangeI x.toInterval ∧
    ¬ x.isInRangeI ⟨1, 2⟩ ∧ ¬ x.isInRangeI ⟨8, 2⟩
#guard let s : Shape := [rng 2 5, rng (-3) 6]
  ([-3, -2, -1, 0, 1, 2].all fun i => [2, 3, 4, 5, 6].all fun j => s.isInRange [j, i]) ∧
    ¬ s.isInRange [1, 0] ∧ ¬ s.isInRange [2, -4] ∧ ¬ s.isInRange [8, 0] ∧ ¬ s.isInRange [2, 4]

/-! ### shape.cpp:450-517 -/

#guard DimT.any.convert ⟨0, 10, 1⟩ = ⟨0, 10, 1⟩
#guard DimT.convert ⟨dynamic, dynamic, 1⟩ (rng 5 15) = ⟨5, 15, 1⟩
#guard DimT.convertAssert ⟨dynamic, dynamic, 1⟩ (rng 5 15)
#guard DimT.any.setStride ⟨3, 10, 4⟩ 5 = ⟨3, 10, 5⟩
#guard let t : DimT := ⟨dynamic, dynamic, 4⟩
  t.setStride (t.make 100 120 4) unresolved = ⟨100, 120, 4⟩ ∧ t.setStrideAssert unresolved ∧ ¬ t.setStrideAssert 5
#guard let dense := convertShapeSameRank [.any, .any] [⟨0, 10, 1⟩, rng 1 5]
  dense = [⟨0, 10, 1⟩, rng 1 5] ∧ convertShapeSameRankAssert (denseShapeTy 2) dense ∧
    convertShapeSameRank (denseShapeTy 2) dense = dense ∧ isCompatible (denseShapeTy 2) dense ∧
    ¬ isCompatible (denseShapeTy 2) [⟨0, 10, 2⟩, ⟨1, 5, 20⟩] ∧
    (convertShape (denseShapeTy 3) dense).getD 2 default = ext 1
#guard let s : Shape := [⟨0, 3, 1⟩, ext 5, ext 8]
  (s.transpose [1, 2, 0]).extents = [5, 8, 3] ∧ (s.transpose [1, 0]).extents = [5, 3, 8] ∧
    ((s.transpose [1, 2, 0]).reorder [2, 0]).extents = [3, 5]

/-! ### shape.cpp:519-555 -/

def dummyDim : Dim := ⟨0, 1, 0⟩

#guard dynamicOptimizeShape [⟨0, 5, 21⟩, ⟨0, 7, 3⟩, ⟨5, 3, 1⟩] = [⟨5, 105, 1⟩, dummyDim, dummyDim]
#guard dynamicOptimizeShape [⟨0, 5, 42⟩, ⟨3, 7, 6⟩, ⟨0, 3, 2⟩] = [⟨9, 105, 2⟩, dummyDim, dummyDim]
#guard dynamicOptimizeShape [⟨0, 5, 40⟩, ⟨0, 7, 3⟩, ⟨0, 2, 1⟩] = [⟨0, 2, 1⟩, ⟨0, 7, 3⟩, ⟨0, 5, 40⟩]
#guard dynamicOptimizeShape [⟨0, 5, 28⟩, ⟨0, 7, 4⟩, ⟨0, 3, 1⟩] = [⟨0, 3, 1⟩, ⟨0, 35, 4⟩, dummyDim]
#guard let e := Shape.resolve ((List.range 10).map fun k : Nat => ext (k + 1))
  let optimized := ⟨0, 3628800, 1⟩ :: List.replicate 9 dummyDim
  dynamicOptimizeShape e = optimized ∧
    dynamicOptimizeShape (e.reorder [9, 5, 3, 7, 2, 8, 4, 6, 0, 1]) = optimized
#guard dynamicOptimizeShape (Shape.resolve [rng 0 2, rng 1 2]) = [⟨2, 4, 1⟩, dummyDim]
#guard dynamicOptimizeShape (Shape.resolve [rng 1 2, rng 1 2]) = [⟨3, 4, 1⟩, dummyDim]

/-! ### shape.cpp:557-590 -/

/-- An object of type `dim<…>` constructed from a min and an extent. -/
def obj (t : DimT) (m e : Int) : SDim := ⟨t, t.make m e t.defaultStride⟩

def objS (m e s : Int) : SDim := ⟨.any, ⟨m, e, s⟩⟩

#guard makeCompact [objS 3 5 2] = [obj ⟨dynamic, dynamic, 1⟩ 3 5]
#guard makeCompact [objS 3 5 8, objS 1 4 1] = [obj ⟨dynamic, dynamic, 1⟩ 3 5, objS 1 4 5]
#guard makeCompact [objS 3 5 8, obj ⟨dynamic, dynamic, 1⟩ 1 4] = [objS 3 5 4, obj ⟨dynamic, dynamic, 1⟩ 1 4]
#guard makeCompact [objS 5 3 8, obj ⟨dynamic, 4, 1⟩ 2 4] =
  [obj ⟨dynamic, dynamic, 4⟩ 5 3, obj ⟨dynamic, 4, 1⟩ 2 4]
#guard makeCompact [obj .any 5 8, obj ⟨dynamic, dynamic, 8⟩ 2 4] = [objS 5 8 1, obj ⟨dynamic, dynamic, 8⟩ 2 4]
#guard makeCompact [obj ⟨0, 8, dynamic⟩ 0 8, obj ⟨0, 4, 8⟩ 0 4] =
  [⟨⟨0, 8, dynamic⟩, ⟨0, 8, 1⟩⟩, obj ⟨0, 4, 8⟩ 0 4]
#guard fixedDense [2, 3, 4, 5] = [⟨⟨0, 2, 1⟩, ⟨0, 2, 1⟩⟩, ⟨⟨0, 3, 2⟩, ⟨0, 3, 2⟩⟩, ⟨⟨0, 4, 6⟩, ⟨0, 4, 6⟩⟩,
  ⟨⟨0, 5, 24⟩, ⟨0, 5, 24⟩⟩]

/-! ### shape.cpp:592-617 -/

/-- `test_number_theory`. -/
def numberTheory (s : Shape) : Bool :=
  let s := s.resolve
  let offs := (run s.forEachIndex).map fun i => s.flatOffset i - s.flatMin
  let counts := (List.range s.flatExtent).map fun k : Nat => offs.count (k : Int)
  s.isCompact == counts.all (· ≥ 1) && s.isOneToOne == counts.all (· ≤ 1)

#guard numberTheory [rng 1 10, rng 3 5]
#guard numberTheory [rng (-1) 10, ⟨3, 5, -1⟩]
#guard numberTheory [⟨-2, 10, 6⟩, rng 3 5]
#guard numberTheory [⟨0, 4, 4⟩, ⟨0, 4, 2⟩, ⟨0, 4, 1⟩]
-- the shape in the comment at 615, which the test leaves out
#guard ¬ numberTheory [⟨0, 4, 4⟩, ⟨0, 4, 4⟩]

/-! ### shuffle.cpp -/

def shuffle (is : List Nat) (t : List Nat) : List Nat := is.map fun i => t.getD i 99

#guard [[0], [1], [2]].all fun is => unshuffle is (shuffle is [0, 1, 2]) == shuffle is [0, 1, 2]
#guard [([0, 1], [0, 1]), ([0, 2], [0, 2]), ([1, 0], [0, 1]), ([1, 2], [1, 2]), ([2, 0], [0, 2]), ([2, 1], [1, 2])].all
  fun p => unshuffle p.1 (shuffle p.1 [0, 1, 2]) == p.2
#guard [[0, 1, 2], [0, 2, 1], [1, 0, 2], [1, 2, 0], [2, 0, 1], [2, 1, 0]].all
  fun is => unshuffle is (shuffle is [0, 1, 2]) == [0, 1, 2]

/-! ### sort.cpp -/

/-- Pseudo random numbers instead of `rand`. -/
def randoms (n : Nat) : List Nat := (List.range n).map fun k => (k * k * 7919 + k * 104729 + n * 31) % 101

#guard (List.range 100).all fun n =>
  bubbleSort (fun a b => decide (a < b)) (randoms n) == (randoms n).mergeSort

end Nda.Check
