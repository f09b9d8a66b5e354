import Verif.Check.Shape
import Verif.Model.Split
import Verif.Model.Image
import Verif.Model.ZOrder
import Verif.Model.Algorithms
import Mathlib.Data.Fin.VecNotation
/-
The expectations of test/array_ref.cpp, test/split.cpp, test/image.cpp, test/z_order.cpp, test/algorithm.cpp and
of the parts of test/array.cpp about copies, evaluated on the model.  Tests of the model, not proofs.

`fill_pattern` and `check_pattern` (test/test.h:131-171) put different values at different indices.  Here every
address holds itself, so checking a view means checking that it refers to the element it should refer to.
-/
namespace Nda.Check

/-- An array of this shape at address 1000. -/
def arrayAt (s : Shape) (buf : Int := 1000) : ArrayRef :=
  let s := s.resolve
  ⟨some (buf - s.flatMin), s⟩

/-- `check_pattern(view, offset)` where the pattern is that of `a`. -/
def checkPattern (a view : ArrayRef) (offset : Index := [0, 0, 0]) : Bool :=
  match view.shape.forEachIndex with
  | none => false
  | some l => l.all fun i => view.at_ i == a.at_ (List.zipWith (· + ·) i offset)

/-! ### array_ref.cpp:22-38, 114-127 -/

#guard let r := ArrayRef.make (some 0) [⟨0, 20, 1⟩, ext 5]
  (run r.shape.forEachIndex).all fun i => r.at_ i == some (i.getD 1 0 * 20 + i.getD 0 0)
#guard let r := ArrayRef.make none [⟨0, 10, 1⟩]
  r.empty ∧ (r.setShape [⟨3, 3, 1⟩] 3).empty ∧ r.setShapeAssert [⟨3, 3, 1⟩] 3 ∧
    ¬ (ArrayRef.make (some 0) []).empty ∧ (ArrayRef.make none []).empty

/-! ### array_ref.cpp:189-203 -/

#guard let r := (ArrayRef.make none [ext 10, ext 20, ext 30]).convertShape [.any, .any, .any, .any]
  r.shape.length = 4 ∧ (r.shape.getD 3 default).min = 0 ∧ (r.shape.getD 3 default).extent = 1
#guard let r := (arrayAt [ext 5, ext 10, ext 20]).convertShape (denseShapeTy 5)
  r.shape.length = 5 ∧ (r.shape.getD 3 default).min = 0 ∧ (r.shape.getD 3 default).extent = 1 ∧
    (r.shape.getD 4 default).min = 0 ∧ (r.shape.getD 4 default).extent = 1

/-! ### array_ref.cpp:217-263 -/

def cropped : ArrayRef := arrayAt [⟨0, 8, 1⟩, ext 9]

#guard (cropped.crop [.idx 3, .all]).shape = [⟨0, 9, 8⟩]
#guard (cropped.crop [.all, .idx 2]).shape = [⟨0, 8, 1⟩]
#guard (cropped.crop [.ivl ⟨4, 3⟩, .idx 5]).shape = [⟨4, 3, 1⟩]
#guard (cropped.crop [.idx 6, .ivl ⟨4, 3⟩]).shape = [⟨4, 3, 8⟩]
#guard let c := cropped.crop [.ivl ⟨2, 6⟩, .ivl ⟨3, 4⟩]
  c.shape = [⟨2, 6, 1⟩, ⟨3, 4, 8⟩] ∧ checkPattern cropped c [0, 0]
#guard let c := cropped.crop [.all, .ivl ⟨3, 4⟩]
  c.shape = [⟨0, 8, 1⟩, ⟨3, 4, 8⟩] ∧ checkPattern cropped c [0, 0]
#guard let c := cropped.crop [.ivl (range 2 6), .ivl ⟨3, 5⟩]
  c.shape = [⟨2, 4, 1⟩, ⟨3, 5, 8⟩] ∧ checkPattern cropped c [0, 0]

/-! ### split.cpp -/

def intervals (r : SplitResult) : List Interval := r.iterate.getD []

#guard intervals (splitStatic 3 ⟨0, 10⟩) = [⟨0, 3⟩, ⟨3, 3⟩, ⟨6, 3⟩, ⟨7, 3⟩]
#guard (List.range 99).all fun n => [1, 2, 3, 4, 5].all fun f =>
  let v : Interval := ⟨0, n + 1⟩
  (splitDynamic v f).size == (v.extent + f - 1) / f &&
    (v.extent < f || (splitStatic f v).size == (v.extent + f - 1) / f)

/-- The tiles of a loop nest over two splits: each is a view of the array with `size` elements, together they
have every element. -/
def tiles (a : ArrayRef) (rs : List SplitResult) (arg : List Interval → List Arg) : List ArrayRef :=
  match rs with
  | [r, s] => (intervals r).flatMap fun u => (intervals s).map fun v => a.crop (arg [u, v])
  | _ => []

def addresses (a : ArrayRef) : List Int := (run a.shape.forEachIndex).map fun i => (a.at_ i).getD 0

def covers (a : ArrayRef) (l : List ArrayRef) : Bool :=
  l.all (checkPattern a) && (addresses a).all fun p => (l.flatMap addresses).contains p

#guard let a := arrayAt [⟨0, 8, 1⟩, ext 9, ext 4]
  let l := tiles a [splitStatic 3 ⟨0, 9⟩, splitStatic 4 ⟨0, 8⟩] fun | [yo, xo] => [.ivl xo, .ivl yo, .all] | _ => []
  (l.all fun t => t.shape.size == 48) ∧ covers a l
#guard let a := arrayAt [⟨2, 8, 1⟩, rng 1 9, ext 4]
  let l := tiles a [splitStatic 4 ⟨1, 9⟩, splitStatic 5 ⟨2, 8⟩] fun | [yo, xo] => [.ivl xo, .ivl yo, .all] | _ => []
  (l.all fun t => t.shape.size == 80) ∧ covers a l
#guard let a := arrayAt [⟨0, 4, 1⟩, ext 8, ext 9]
  let l := tiles a [splitDynamic ⟨0, 9⟩ 3, splitDynamic ⟨0, 8⟩ 4] fun | [zo, yo] => [.all, .ivl yo, .ivl zo] | _ => []
  (l.map fun t => t.shape.size).sum = a.shape.size ∧ covers a l
#guard let a := arrayAt [⟨2, 8, 1⟩, rng 1 9, ext 4]
  let l := tiles a [splitDynamic ⟨0, 4⟩ 12, splitDynamic ⟨2, 8⟩ 5] fun | [zo, xo] => [.ivl xo, .all, .ivl zo] | _ => []
  (l.map fun t => t.shape.size).sum = a.shape.size ∧ covers a l

/-! ### image.cpp:20-78 -/

def planar (w h c : Int) : ArrayRef := arrayAt [⟨0, w, 1⟩, ext h, ext c]
def chunky (w h c : Int) : ArrayRef := arrayAt [⟨0, w, c⟩, ext h, ⟨0, c, 1⟩]

/-- Mins and maxs of x and y. -/
def extremes (a : ArrayRef) : List Int := (a.shape.mins.take 2) ++ (a.shape.maxs.take 2)

#guard [planar 100 80 3, chunky 100 80 3].all fun base =>
  let xy := cropImage base 2 1 96 77 .crop
  let zero := cropImage base 3 2 95 76 .zero
  let xy2 := cropImage xy 4 3 92 73 .crop
  let out := cropImage base 50 40 105 70 .crop
  extremes xy == [2, 1, 95, 76] && checkPattern base xy &&
    extremes zero == [0, 0, 91, 73] && checkPattern base zero [3, 2, 0] &&
    extremes xy2 == [4, 3, 91, 72] && checkPattern base xy2 &&
    extremes out == [50, 40, 99, 69] && checkPattern base out
#guard [planar 100 80 5, chunky 100 80 5].all fun base => [0, 1, 2, 3, 4].all fun c =>
  let s := sliceChannel base c
  let t := sliceChannel (cropImage base 5 3 80 70 .crop) c
  s.shape.size == 8000 && ((run s.shape.forEachIndex).all fun i => s.at_ i == base.at_ (i ++ [c])) &&
    t.shape.size == 75 * 67 && ((run t.shape.forEachIndex).all fun i => t.at_ i == base.at_ (i ++ [c]))

/-! ### copies: image.cpp:80-167, array.cpp:299-398, algorithm.cpp:32-68, with smaller images -/

/-- What `copy` leaves at an address outside of the source: the assignments it makes are those of `copyTrace`.
(Evaluating `copy` itself takes exponential time, because memory is a function.) -/
def copied (src dst : ArrayRef) (p : Option Int) (before : Option Int := none) : Option Int :=
  match (copyTrace src dst).reverse.find? fun q => some q.2 == p with
  | some q => some q.1
  | none => before

/-- `copy(src, dst); check_pattern(dst)`. -/
def copies (src dst : ArrayRef) : Bool :=
  copyAssert src.shape dst.shape &&
    (run dst.shape.forEachIndex).all fun i => copied src dst (dst.at_ i) == src.at_ i

/-- The same array in other memory. -/
def at2 (a : ArrayRef) : ArrayRef := { a with base := a.base.map (· + 1000000) }

#guard [1, 2, 3, 4].all fun c => [planar 8 5 c, chunky 8 5 c].all fun src => [planar 8 5 c, chunky 8 5 c].all fun dst =>
  copies src (at2 dst)
#guard [1, 2, 3, 4].all fun c => [planar 8 6 c, chunky 8 6 c].all fun src =>
  copies src (arrayAt [⟨2, 6, 1⟩, rng 1 4, ext c] 1000000) && copies src (arrayAt [⟨2, 6, c⟩, rng 1 4, ⟨0, c, 1⟩] 1000000)
-- the padding channel of chunky images is not written (image.cpp:150-167)
#guard let src := arrayAt [⟨0, 8, 4⟩, ext 5, ⟨0, 4, 1⟩]
  let dst := at2 src
  let rgb (a : ArrayRef) : ArrayRef := ArrayRef.make a.base [⟨0, 8, 4⟩, ext 5, ⟨0, 3, 1⟩]
  (run dst.shape.forEachIndex).all fun i =>
    copied (rgb src) (rgb dst) (dst.at_ i) (some 5) == if i.getD 2 0 == 3 then some 5 else src.at_ i
#guard let a := arrayAt [ext 4, ext 5, ext 6]
  let b := arrayAt [⟨0, 4, 1⟩, ext 5, ext 6] 1000000
  let c := arrayAt [⟨0, 4, 2⟩, ext 5, ext 6] 1000000
  let g := arrayAt [⟨1, 2, 1⟩, rng 1 3, rng 1 4] 1000000
  copies a b ∧ copies { b with base := b.base.map (· - 999000) } c ∧ copies a g
#guard copies (arrayAt [⟨0, 4, 6⟩, ⟨0, 6, 1⟩]) (arrayAt [⟨0, 4, 6⟩, ⟨0, 3, 2⟩] 1000000)
#guard [0, 1].all fun (cmin : Int) => [0, 1].all fun (cmax : Int) =>
  copies (arrayAt [ext 10, ext 20]) (arrayAt [rng cmin (10 - cmax - cmin), rng cmin (20 - cmax - cmin)] 1000000)

/-! ### array.cpp:280-297 `array_equality` -/

def ints (a b : Int) : Bool := a != b

#guard let a := arrayAt [ext 4, ext 5, ext 6] 0
  let b := arrayAt [ext 4, ext 5, ext 6] 1000
  let c := arrayAt [⟨0, 4, 2⟩, ext 5, ext 6] 2000
  let m : Mem Int := fun p => if p < 1000 then p else if p < 2000 then p - 1000 else (p - 2000) / 2
  let m' : Mem Int := fun p => if some p = a.at_ [1, 2, 3] then 5 else m p
  a.eq ints m b ∧ a.ne ints m c ∧ equal ints m a c ∧ a.ne ints m' b ∧ a.ne ints m' c ∧ ¬ equal ints m' a c

/-! ### array.cpp:415-455 `array_for_each_value`, 481-500 `array_negative_strides` -/

#guard let a : ArrayRef := ⟨some 0, [⟨0, 4, 16⟩, ⟨0, 4, 1⟩, ⟨0, 4, 4⟩]⟩
  a.forEachValue = (List.range 64).map fun k : Nat => (k : Int)
#guard let a : ArrayRef := ⟨some 0, [⟨0, 4, 1⟩, ⟨0, 4, 4⟩, ⟨0, 4, 16⟩]⟩
  a.forEachValue = (List.range 64).map fun k : Nat => (k : Int)
#guard (Shape.resolve [⟨0, 20, -1⟩, ext 10]).strides = [-1, 20]
#guard (makeCompact [objS 0 10 3, objS 0 3 (-1)]).map (fun d => d.val.stride) = [1, 10]

/-! ### z_order.cpp:27-70 (smaller boxes in rank 3), 72-117 -/

def listOf {n : Nat} {α : Type} (f : Fin n → α) : List α := List.ofFn f

def zOrder (extents : List Int) : List (List Int) :=
  match extents with
  | [w] => (run (forEachIndexInZOrder ![w])).map listOf
  | [w, h] => (run (forEachIndexInZOrder ![w, h])).map listOf
  | [w, h, d] => (run (forEachIndexInZOrder ![w, h, d])).map listOf
  | _ => []

/-- Every index of the box exactly once. -/
def once (extents : List Int) : Bool :=
  let l := zOrder extents
  let box := run (Shape.forEachIndex (extents.map ext))
  l.length == box.length && box.all fun i => l.contains i

#guard once [12]
#guard [1, 2, 3, 4, 5, 12, 16, 20].all fun w => [1, 2, 3, 4, 5, 12, 16, 20].all fun h => once [w, h]
#guard [1, 2, 3, 4, 5].all fun w => [1, 2, 3, 4, 5].all fun h => [1, 2, 3, 4, 5, 7].all fun d => once [w, h, d]
#guard [3, 4, 5, 6, 12, 20].all fun w => [1, 2, 3, 4, 5, 6, 12, 20].all fun h =>
  let a := arrayAt [⟨0, w, 1⟩, ext h]
  let l := run (forEachInZOrder ![intervals (splitStatic 3 ⟨0, w⟩), intervals (splitDynamic ⟨0, h⟩ 3)])
  let ts := l.map fun f => a.crop [.ivl ((f 0).getD default), .ivl ((f 1).getD default)]
  a.shape.size ≤ (ts.map fun t => t.shape.size).sum &&
    ts.all (fun t => checkPattern a t [0, 0]) &&
    (addresses a).all fun p => ts.any fun t => (addresses t).contains p

end Nda.Check
