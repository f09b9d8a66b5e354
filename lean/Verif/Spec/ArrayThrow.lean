import Verif.Model.ArrayThrow
import Verif.Spec.Array
/-
Vocabulary for statements about exceptions.
-/
namespace Nda
open Spec

variable {V : Type}

/-- Number of elements alive in a block. -/
def aliveIn (blk : Block V) : Nat := ((List.range blk.size).map fun p : Nat => blk.live (p : Int)).sum

/-- An allocation that belongs to no array, so that nothing will release it. -/
def Orphan (w : World V) (b : Nat) : Prop := ∀ x a o, w.vars x = some a → a.buffer ≠ some (b, o)

/-- All arrays but `x` are as before. -/
def OthersSame (w w' : World V) (x : Nat) : Prop :=
  ∀ z, z ≠ x → w'.vars z = w.vars z ∧ ∀ i, elem w' z i = elem w z i

end Nda
