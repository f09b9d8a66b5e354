import Mathlib.Data.Fin.Basic
import Mathlib.Data.Int.Order.Basic
/-
Morton order.
-/
namespace Nda.Spec

/-- `a` comes before `b` on the z-order curve: for some bit `k` and some dimension `d`, all bits above `k`
are the same in all dimensions, bit `k` is the same in the dimensions after `d`, and smaller in dimension
`d`. -/
def MortonLt {n : Nat} (a b : Fin n → Int) : Prop :=
  ∃ (k : Nat) (d : Fin n), (∀ e, a e / 2 ^ (k + 1) = b e / 2 ^ (k + 1)) ∧
    (∀ e, d < e → a e / 2 ^ k = b e / 2 ^ k) ∧ a d / 2 ^ k < b d / 2 ^ k

end Nda.Spec
