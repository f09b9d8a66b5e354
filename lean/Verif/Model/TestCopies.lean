import Verif.Model.ExamplePrograms
import Verif.Model.NullViews
import Verif.Model.TestMain
import Verif.Model.TestPattern
/-
The tests of test/performance.cpp: `copy` and `for_each_value` against code without them.  Sizes for `memcpy` are in elements
(`n * sizeof(int)` bytes in the code).  How often `benchmark` (test/test.h:197-219) calls a function after its first call, and the times
that it returns, are arbitrary; C93 is about them.  Allocations are given by their addresses; initial contents are arbitrary.
-/
namespace Nda
variable {α : Type}

/-- `std::memcpy`; `none` if the two regions overlap, which is undefined. -/
def memcpy (dst src n : Int) (m : Mem α) : Option (Mem α) :=
  if src < dst + n ∧ dst < src + n then none
  else some fun x => if dst ≤ x ∧ x < dst + n then m (src + (x - dst)) else m x

/-- test/performance.cpp:31: the whole array. -/
def memcpyWhole (a c : ArrayRef) (m : Mem α) : Option (Mem α) := do
  let pc ← c.at_ [0, 0, 0]
  let pa ← a.at_ [0, 0, 0]
  memcpy pc pa a.shape.size m

/-- test/performance.cpp:48-53: rows. -/
def memcpyRows (a c : ArrayRef) (m : Mem α) : Option (Mem α) :=
  match c.shape with
  | [x, y, z] => do
    let zs ← z.iterate
    zs.foldlM (fun m k => do
      let ys ← y.iterate
      ys.foldlM (fun m j => do
        let pc ← c.at_ [x.min, j, k]
        let pa ← a.at_ [x.min, j, k]
        memcpy pc pa x.extent m) m) m
  | _ => none

/-- test/performance.cpp:71-74: rows of pixels with their channels. -/
def memcpyChunkyRows (a c : ArrayRef) (m : Mem α) : Option (Mem α) :=
  match c.shape with
  | [x, y, ch] => do
    let ys ← y.iterate
    ys.foldlM (fun m j => do
      let pc ← c.at_ [x.min, j, 0]
      let pa ← a.at_ [x.min, j, 0]
      memcpy pc pa (x.extent * ch.extent) m) m
  | _ => none

/-- test/performance.cpp:92-98: element by element. -/
def copyByLoops (a c : ArrayRef) (m : Mem α) : Option (Mem α) :=
  match c.shape with
  | [x, y, z] => do
    let zs ← z.iterate
    zs.foldlM (fun m k => do
      let ys ← y.iterate
      ys.foldlM (fun m j => do
        let xs ← x.iterate
        xs.foldlM (fun m i => do
          let pc ← c.at_ [i, j, k]
          let pa ← a.at_ [i, j, k]
          pure (m.set pc (m pa))) m) m) m
  | _ => none

/-- test/performance.cpp:22-104: the four tests of `copy`, with `other` for what `copy` is compared with and `factor` for the
multiplication of a time by 1.5 or 0.5; `calls1` and `calls2` say how often `benchmark` calls its function after the first time. The
assertions of `copy` are checked. -/
def copyTest [DecidableEq α] {D : Type} (lt : D → D → Bool) (factor : D → D) (cast : Int → α) (add : α → α → α) (zero : α)
    (other : Mem α → Option (Mem α)) (a b c : ArrayRef) (calls1 calls2 : Nat) (time1 time2 : D) (m : Mem α) :
    Option (Mem α × TestEnd) := do
  let m ← fillPattern cast add zero a m
  let m ← repeatOp (fun m => if copyAsserts a b then some (copy id a b m) else none) (calls1 + 1) m
  if (← checkPatternRef cast b (b.shape.map fun _ => 0) m) then do
    let m ← repeatOp other (calls2 + 1) m
    if (← checkPatternRef cast c (c.shape.map fun _ => 0) m) then
      pure (m, if lt time1 (factor time2) then .passed else .failed "time")
    else pure (m, .failed "c")
  else pure (m, .failed "b")

/-- test/performance.cpp:108-110: `for_each_index(a.shape(), [&](i) { a[i] = v; })`. -/
def setByIndex (a : ArrayRef) (v : α) (m : Mem α) : Option (Mem α) := do
  let tr ← a.shape.forEachIndex
  tr.foldlM (fun m i => do
    let p ← a.at_ i
    pure (m.set p v)) m

/-- test/performance.cpp:114: `b.for_each_value([](int& x) { x = v; })`. -/
def setByValue (b : ArrayRef) (v : α) (m : Mem α) : Mem α := b.forEachValue.foldl (fun m p => m.set p v) m

end Nda
