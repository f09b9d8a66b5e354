import Verif.Spec.Box
import Verif.Model.Ref
/-
Specification vocabulary for C90.
-/
namespace Nda.Spec

/-- An array_ref that has memory for its elements: it is not null, or has no element. -/
def Backed (a : ArrayRef) : Prop := a.base = none → ∀ i, ¬ InBox a.shape i

end Nda.Spec
