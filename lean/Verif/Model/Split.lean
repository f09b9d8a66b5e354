import Verif.Model.Core
/-
Model of `split` and `split_iterator` (array.h:516-647).
-/
namespace Nda

/-- array.h:522-523: the members `i` (an interval) and `outer_max` of `split_iterator`. -/
structure SplitIt where
  i : Interval
  outerMax : Int
deriving DecidableEq, Repr, Inhabited

namespace SplitIt

/-- array.h:529-534 `operator==` compares the mins only. -/
def eq (a b : SplitIt) : Bool := a.i.min == b.i.min

/-- array.h:540-550 `operator+=` for a compile-time `InnerExtent = e`. -/
def addStatic (e : Int) (it : SplitIt) (n : Int) : SplitIt :=
  let i : Interval := { it.i with min := it.i.min + e * n }
  let i := if i.min ≤ it.outerMax ∧ i.max > it.outerMax then
      { i with min := it.outerMax - e + 1 } else i
  { it with i := i }

/-- array.h:551-558 `operator+=` for a run-time inner extent. -/
def addDynamic (it : SplitIt) (n : Int) : SplitIt :=
  let i : Interval := { it.i with min := it.i.min + it.i.extent * n }
  let mx := imin i.max it.outerMax
  { it with i := { i with extent := mx - i.min + 1 } }

/-- array.h:572-574 `operator-`; C++ integer division truncates. -/
def sub (it r : SplitIt) : Int :=
  if r.i.extent > 0 then Int.tdiv (it.i.max - r.i.min + r.i.extent - it.i.extent) r.i.extent else 0

end SplitIt

/-- array.h:583-600 `split_result`. -/
structure SplitResult where
  begin_ : SplitIt
  end_ : SplitIt
  /-- `operator+=` of the iterator type. -/
  add : SplitIt → Int → SplitIt

namespace SplitResult

/-- array.h:598 `split_result::size`. -/
def size (r : SplitResult) : Int := r.end_.sub r.begin_

/-- array.h:599 `split_result::operator[]`, dereferenced. -/
def get (r : SplitResult) (k : Int) : Interval := (r.add r.begin_ k).i

/-- The range-for loop over a `split_result`: `++it` until `it == end`; `none` = never ends. -/
def loop (r : SplitResult) (it : SplitIt) : Option (List Interval) :=
  if it.eq r.end_ then some [] else do
    let rest ← loop r (r.add it 1)
    pure (it.i :: rest)
partial_fixpoint

/-- `for (auto v : split(...))`. -/
def iterate (r : SplitResult) : Option (List Interval) := r.loop r.begin_

end SplitResult

/-- array.h:614-620 `split<InnerExtent>(v)`. -/
def splitStatic (e : Int) (v : Interval) : SplitResult :=
  ⟨⟨⟨v.min, e⟩, v.max⟩, ⟨⟨v.max + 1, e⟩, v.max⟩, SplitIt.addStatic e⟩

/-- The assertion of array.h:617. -/
def splitStaticAssert (e : Int) (v : Interval) : Bool := decide (v.extent ≥ e)

/-- array.h:637-642 `split(v, inner_extent)`. -/
def splitDynamic (v : Interval) (innerExtent : Int) : SplitResult :=
  ⟨⟨⟨v.min, imin innerExtent v.extent⟩, v.max⟩, ⟨⟨v.max + 1, 0⟩, v.max⟩, SplitIt.addDynamic⟩

end Nda
