import Verif.Model.Ref
/-
What two crops or slices, one after the other, are together.
-/
namespace Nda.Spec

/-- The arguments of one call that does what `a(as...)(bs...)` does: an index stays, and of the other arguments the
later one counts, unless it is `_`. -/
def thenArgs : List Arg → List Arg → List Arg
  | .idx i :: as, bs => .idx i :: thenArgs as bs
  | a :: as, .all :: bs => a :: thenArgs as bs
  | _ :: as, b :: bs => b :: thenArgs as bs
  | _, _ => []

/-- No argument is an index. -/
def NoIndex (args : List Arg) : Prop := ∀ i, Arg.idx i ∉ args

end Nda.Spec
