import Mathlib.Data.Fin.Basic
import Mathlib.Logic.Function.Basic
/-
Model of z_order.h: traversing a box along a z-order curve.

`std::array<index_t, Rank>` is a function from `Fin Rank`; the rank is at least 1 (for rank 0 the C++
code accesses elements of an empty array).  A callback is modelled by the list of its arguments, in call
order; `none` is a recursion or loop that does not end.
-/
namespace Nda

/-- The loop of z_order.h:33-35. -/
def nextPowerOfTwoLoop (x result : Int) : Option Int :=
  if result < x then nextPowerOfTwoLoop x (result * 2) else some result
partial_fixpoint

/-- z_order.h:31-37 `internal::next_power_of_two`. -/
def nextPowerOfTwo (x : Int) : Option Int := nextPowerOfTwoLoop x 1

/-- z_order.h:41-67 `internal::for_each_index_in_z_order_impl`. -/
def zOrderImpl {n : Nat} (end_ z : Fin (n + 1) → Int) (dim : Fin (n + 1)) (step : Int) :
    Option (List (Fin (n + 1) → Int)) :=
  if dim = 0 ∧ step = 1 then
    let z' := Function.update z 0 (z 0 + 1)
    some (z :: if z' 0 < end_ 0 then [z'] else [])
  else if dim = 0 then do
    let a ← zOrderImpl end_ z (Fin.last n) (step >>> 1)
    let z' := Function.update z 0 (z 0 + step)
    if z' 0 < end_ 0 then
      let b ← zOrderImpl end_ z' (Fin.last n) (step >>> 1)
      pure (a ++ b)
    else pure a
  else do
    let a ← zOrderImpl end_ z (dim - 1) step
    let z' := Function.update z dim (z dim + step)
    if z' dim < end_ dim then
      let b ← zOrderImpl end_ z' (dim - 1) step
      pure (a ++ b)
    else pure a
partial_fixpoint

/-- `*std::max_element(end.begin(), end.end())`, z_order.h:76. -/
def maxElement {n : Nat} (end_ : Fin (n + 1) → Int) : Int :=
  (List.ofFn end_).foldl (fun m x => if m < x then x else m) (end_ 0)

/-- z_order.h:71-80 `internal::for_each_index_in_z_order`. -/
def forEachIndexInZOrder {n : Nat} (extents : Fin (n + 1) → Int) : Option (List (Fin (n + 1) → Int)) := do
  let p ← nextPowerOfTwo (maxElement extents)
  let step := max (1 : Int) (p >>> 1)
  zOrderImpl extents (fun _ => 0) (Fin.last n) step

/-- z_order.h:82-91 `internal::for_each_in_z_order_impl`, with `for_each_in_z_order` (99-104) and
`for_all_in_z_order` (105-111).  The ranges are lists of values of one type; an argument of the callback
that is read from outside of a range is `none`. -/
def forEachInZOrder {n : Nat} {α : Type} (ranges : Fin (n + 1) → List α) :
    Option (List (Fin (n + 1) → Option α)) := do
  let tr ← forEachIndexInZOrder fun d => ((ranges d).length : Int)
  pure (tr.map fun i d => if 0 ≤ i d then (ranges d)[(i d).toNat]? else none)

end Nda
