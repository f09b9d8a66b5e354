import Verif.Spec.ExamplePrograms
import Verif.Spec.ResampleProgram
/-
Specification vocabulary for the program that measures `resample` (C100).
-/
namespace Nda.Spec

/-- `r` is the time in milliseconds that a trial took, divided by its number of calls, up to rounding. -/
def TimePrinted (clock : Nat → Int) (r : Ieee) : Prop :=
  ∃ (k : Nat) (calls : Int), k < 10 ∧ 1 ≤ calls ∧ calls ≤ 1111111111 ∧ (k = 9 ∨ 999999999 < clock k) ∧ (∃ x, r = .num x) ∧
    |r.value - clock k / (calls * 1000000)| ≤ 9 * (2 : ℚ)⁻¹ ^ 53 * |(clock k / (calls * 1000000) : ℚ)|

/-- All components of the image of size `w` by `h` at `b`, with planes one after the other, are `z`. -/
def AllComponents {F : Type} (z : F) (w h b : Int) (m : Mem F) : Prop :=
  ∀ x y c, IsComponent w h x y c → m (b + (c * h + y) * w + x) = z

end Nda.Spec
