import Verif.Model.Compiles
import Verif.Spec.Static
/-
What calls mean, judged by the types of their arguments (C83).
-/
namespace Nda.Spec

/-- The argument is a number. -/
def IsNumber (a : ArgT) : Prop := a = .number

/-- The argument is a number, an interval or a dim. -/
def IsIndexOrRange (a : ArgT) : Prop := a ≠ .other

/-- A call that gives an element: a number for each dim. -/
def IsElementCall (rank : Nat) (args : List ArgT) : Prop := args.length = rank ∧ ∀ a ∈ args, IsNumber a

/-- A call that gives a view: a number, interval or dim for each dim, at least one not a number. -/
def IsViewCall (rank : Nat) (args : List ArgT) : Prop :=
  args.length = rank ∧ (∀ a ∈ args, IsIndexOrRange a) ∧ ∃ a ∈ args, ¬ IsNumber a

/-- The types of an argument tell the truth about its value. -/
def FitsArg : SArg → Prop
  | .number _ => True
  | .interval t v => Describes t.min v.min ∧ Describes t.extent v.extent
  | .dim d => Fits d.ty d.val

end Nda.Spec
