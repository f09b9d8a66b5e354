import Verif.Model.Callables
/-
Specification vocabulary for function objects: which calls are made on which object.  Only the data
type `Callable` of the model is used (its call operator, and its move and copy constructors).
-/
namespace Nda.Spec

/-- The object `f` is called with the arguments `l`, one after the other; the results are `rs`, and
the object and the outside end as `f'` and `x'`. -/
inductive Calls {F A R X : Type} (c : Callable F A R X) : List A → F → X → List R → F → X → Prop
  | done (f : F) (x : X) : Calls c [] f x [] f x
  | next {a : A} {l : List A} {f f₁ f₂ : F} {x x₁ x₂ : X} {r : R} {rs : List R} :
      c.call f a x = some (r, f₁, x₁) → Calls c l f₁ x₁ rs f₂ x₂ → Calls c (a :: l) f x (r :: rs) f₂ x₂

/-- The object `f` is called with the first components of `l`, one after the other, and each result
is stored at the address given by the second component before the next call. -/
inductive Assigns {F A R σ : Type} (c : Callable F A R (σ × Mem R)) :
    List (A × Int) → F → σ × Mem R → F → σ × Mem R → Prop
  | done (f : F) (x : σ × Mem R) : Assigns c [] f x f x
  | next {a : A} {p : Int} {l : List (A × Int)} {f f₁ f₂ : F} {x x₂ : σ × Mem R} {s₁ : σ} {m₁ : Mem R}
      {r : R} :
      c.call f a x = some (r, f₁, s₁, m₁) →
      Assigns c l f₁ (s₁, fun q => if q = p then r else m₁ q) f₂ x₂ → Assigns c ((a, p) :: l) f x f₂ x₂

/-- `g` is made from the caller's object `f`, which becomes `left`: by the copy constructor if the
caller's object is const, and else by the move constructor. -/
def MadeFrom {F A R X : Type} (c : Callable F A R X) (const : Bool) (f g left : F) : Prop :=
  (const = true ∧ g = c.dup f ∧ left = f) ∨ (const = false ∧ c.take f = (g, left))

end Nda.Spec
