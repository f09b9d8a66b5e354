import Verif.Model.Static
import Verif.Spec.Box
import Verif.Spec.Strides
/-
Specification vocabulary for the compile-time layer (C28-C30).
-/
namespace Nda.Spec

/-- The compile-time parameter `p` (or the placeholder -9, array.h:99) tells the truth about the
run-time value `v`. -/
def Describes (p v : Int) : Prop := p ≠ -9 → v = p

/-- All three parameters of a dim type tell the truth about a dim. -/
def Fits (t : DimT) (d : Dim) : Prop :=
  Describes t.min d.min ∧ Describes t.extent d.extent ∧ Describes t.stride d.stride

/-- The dim can be converted: static min and extent agree, and a static stride agrees with the
stride or the stride is still to be resolved. -/
def Convertible (t : DimT) (d : Dim) : Prop :=
  Describes t.min d.min ∧ Describes t.extent d.extent ∧
    (d.stride = -9223372036854775808 ∨ Describes t.stride d.stride)

end Nda.Spec
