import Verif.Model.Algorithms
/-
The contents that the tests give to arrays and check (test/test.h:133-171).  `cast` is `static_cast<T>` of an `index_t`; sums are
exact (no overflow of `index_t`).
-/
namespace Nda
variable {α : Type}

/-- test/test.h:135 `pattern_basis`. -/
def patternBasis : List Int := [1, 30, 1000, 10000, 1000000]

/-- test/test.h:133-138 `pattern_impl`, without the cast: `none` if there are more indices than elements of `pattern_basis`, which is
then read past its end. -/
def patternImpl : List Int → Index → Index → Option Int
  | _, [], [] => some 0
  | b :: basis, x :: i, o :: offset => do
    let r ← patternImpl basis i offset
    pure ((x + o) * b + r)
  | _, _, _ => none

/-- test/test.h:142-146 `pattern`. -/
def testPattern (cast : Int → α) (i offset : Index) : Option α := (patternImpl patternBasis i offset).map cast

/-- test/test.h:149-157 `fill_pattern`: `transform_index` (array.h:2930-2935) with the pattern plus `seed`. -/
def fillPattern (cast : Int → α) (add : α → α → α) (seed : α) (a : ArrayRef) (m : Mem α) : Option (Mem α) := do
  let tr ← a.shape.forEachIndex
  tr.foldlM (fun m i => do
    let p ← a.at_ i
    let v ← testPattern cast i (i.map fun _ => 0)
    pure (m.set p (add v seed))) m

/-- The calls of test/test.h:163-165: the first that finds a difference throws an exception. -/
def checkLoop [DecidableEq α] (cast : Int → α) (a : ArrayRef) (offset : Index) (m : Mem α) : List Index → Option Bool
  | [] => some true
  | i :: tr => do
    let p ← a.at_ i
    let v ← testPattern cast i offset
    if m p = v then checkLoop cast a offset m tr else pure false

/-- test/test.h:160-171 `check_pattern`: `true` if it returns, `false` if it throws an exception. -/
def checkPatternRef [DecidableEq α] (cast : Int → α) (a : ArrayRef) (offset : Index) (m : Mem α) : Option Bool := do
  let tr ← a.shape.forEachIndex
  checkLoop cast a offset m tr

end Nda
