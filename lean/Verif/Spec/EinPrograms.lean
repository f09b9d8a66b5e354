import Verif.Spec.Ein
/-
Specification of the reductions of `Verif/Model/EinPrograms.lean` (C96).
-/
namespace Nda.Spec
variable {α : Type}

/-- `ein<i, j, k>(v)` for an array of rank 3. -/
def einVol (base : Int) (d0 d1 d2 : SDim) (i j k : Nat) : EinOp α := ⟨.arr (some base) [d0, d1, d2], [i, j, k]⟩

/-- `v(x, y, z)`. -/
def volAt (m : Int → α) (base : Int) (d0 d1 d2 : SDim) (x y z : Int) : α :=
  m (base + (x - d0.val.min) * d0.val.stride + (y - d1.val.min) * d1.val.stride + (z - d2.val.min) * d2.val.stride)

/-- The three coordinates of a vector, as a dim `dim<0, 3>` has them. -/
def Three (d : SDim) : Prop := d.val.min = 0 ∧ d.val.extent = 3

/-- The number of pairs of positions of a list whose entries are in the wrong order. -/
def inversions : List Int → Nat
  | [] => 0
  | x :: l => (l.filter fun y => y < x).length + inversions l

/-- What the transform needs: the matrix `W` has a row for each element of `X` and a column for each of `x`, its
elements have different addresses, and `W`, `x` and `X` have no element in common. -/
structure DftOk (W x X : Int) (W0 W1 x0 X0 : SDim) (j k : Nat) (α : Type) : Prop where
  good : ∀ d ∈ [X0, W0, W1, x0], GoodDim d
  rows : SameBounds W0 X0
  cols : SameBounds x0 W1
  different : j ≠ k
  matrix : Injective [W0.val, W1.val]
  result : GoodResult (einVec X X0 j)
    (.binary (fun a _ => a) (.op (einMat W W0 W1 j k)) (.op (einVec x x0 k)) : EinExpr α)
  apart : ∀ p, OpElement (einMat W W0 W1 j k : EinOp α) p → ¬ OpElement (einVec x x0 k : EinOp α) p

end Nda.Spec
