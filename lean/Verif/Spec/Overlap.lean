import Verif.Spec.Order
/-
Specification vocabulary for copies between views that have elements in common (C95).
-/
namespace Nda.Spec

/-- In the order of the addresses in the destination, no element is a destination before it is a source.  `src` and `dst`
have their elements of smallest indices at `a` and `b`. -/
def NotOverwritten (src : List Dim) (a : Int) (dst : List Dim) (b : Int) : Prop :=
  ∀ i j, InBox dst i → InBox dst j → offsetOf dst i < offsetOf dst j → b + offsetOf dst i ≠ a + offsetOf src j

/-- As `NotOverwritten`, except that an element can be overwritten with the value that it already has. -/
def NotSpoiled (src : List Dim) (a : Int) (dst : List Dim) (b : Int) : Prop :=
  ∀ i j, InBox dst i → InBox dst j → offsetOf dst i < offsetOf dst j → b + offsetOf dst i = a + offsetOf src j →
    offsetOf src i = offsetOf src j

/-- No element of the destination is at a higher address than its source. -/
def Downward (src : List Dim) (a : Int) (dst : List Dim) (b : Int) : Prop :=
  ∀ i, InBox dst i → b + offsetOf dst i ≤ a + offsetOf src i

end Nda.Spec
