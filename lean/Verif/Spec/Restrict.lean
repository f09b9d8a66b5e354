import Verif.Spec.Box
import Verif.Model.Restrict
/-
Specification of what `__restrict__` asks for (C74).
-/
namespace Nda.Spec

/-- The calls of `fn` in a list of groups. -/
def groupCalls {P : Type} : List (LoopGroup P) → List P
  | [] => []
  | .dense l :: g => l ++ groupCalls g
  | .single p :: g => p :: groupCalls g

/-- What `__restrict__` asks for (C11 6.7.3.1): while a function with restricted pointer parameters executes, an element that is
modified is accessed through only one of them.  Here the first pointers are into the allocation `bs` and the elements they point to
are read, the second ones are into `bd` and their elements are assigned. -/
def RestrictOk (bs bd : Nat) (groups : List (LoopGroup (Int × Int))) : Prop :=
  ∀ l, .dense l ∈ groups → ∀ p ∈ l, ∀ q ∈ l, (bs, p.1) ≠ (bd, q.2)

/-- `s`, with its element of smallest indices at `a`, and `t` with the same at `b`, have no element in common at the indices of
`t`. -/
def NoCommon (s : List Dim) (a : Int) (t : List Dim) (b : Int) : Prop :=
  ∀ i j, InBox t i → InBox t j → a + offsetOf s i ≠ b + offsetOf t j

end Nda.Spec
