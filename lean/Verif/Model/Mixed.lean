import Mathlib.Logic.Function.Basic
import Verif.Model.Ein
/-
Algorithms on arrays of different element types, and operations on elements that are not defined for all values
(`Verif.Model.Ein` and `Algorithms` have one value type and total operations): ein_reduce.h:107-196, 418-443 and
array.h:2956-2968.  (`copy` between different types is `copyBetween` in `Verif.Model.ResampleProgram`.)

`τ` are the element types, `C t` the values of type `t`.  Objects of different types do not share memory (array.h
makes no views of other types but by `reinterpret`, which is C87), so there is one memory for each type.
-/
namespace Nda

variable {τ : Type} {C : τ → Type}

/-- The memory: for each type, the objects of this type. -/
abbrev TypedMem (C : τ → Type) := (t : τ) → Mem (C t)

/-- Assignment to an object of type `t`. -/
def TypedMem.set [DecidableEq τ] (m : TypedMem C) (t : τ) (a : Int) (v : C t) : TypedMem C :=
  Function.update m t ((m t).set a v)

/-- ein_reduce.h:73-196: expressions whose operands have types.  The operators give `none` where C++ does not
define the result (signed overflow, division by zero, a conversion that is out of range); the operands of an
operator may have different types, as may its result (usual arithmetic conversions). -/
inductive MixedExpr (C : τ → Type) : τ → Type where
  | op {t : τ} (o : EinOp (C t)) : MixedExpr C t
  | unary {s t : τ} (f : C s → Option (C t)) (e : MixedExpr C s) : MixedExpr C t
  | binary {s t u : τ} (f : C s → C t → Option (C u)) (a : MixedExpr C s) (b : MixedExpr C t) : MixedExpr C u

/-- An operand without its values. -/
def EinOp.untyped {α : Type} (o : EinOp α) : EinOp Unit :=
  match o with
  | ⟨.arr base dims, is⟩ => ⟨.arr base dims, is⟩
  | ⟨.fn _, is⟩ => ⟨.fn fun _ => (), is⟩

/-- The operands without their values: what `gather_dims` and `reconcile_dim` (ein_reduce.h:228-328) look at. -/
def MixedExpr.untyped {t : τ} : MixedExpr C t → EinExpr Unit
  | .op o => .op o.untyped
  | .unary _ e => .unary id e.untyped
  | .binary _ a b => .binary (fun _ _ => ()) a.untyped b.untyped

/-- ein_reduce.h:84-87, 121-124, 137-140, 164-167, 176-181: `operator()`.  `none`: undefined. -/
def MixedExpr.eval (m : TypedMem C) (i : Index) : {t : τ} → MixedExpr C t → Option (C t)
  | t, .op o => o.eval (m t) i
  | _, .unary f e => do
    let x ← e.eval m i
    f x
  | _, .binary f a b => do
    let x ← a.eval m i
    let y ← b.eval m i
    f x y

/-- ein_reduce.h:164-167 with `op` one of `=`, `+=`, `-=`, `*=`: the element `x` of the left-hand side becomes `f x y`,
in the type of the left-hand side. -/
def mixedStep [DecidableEq τ] {l r : τ} (f : C l → C r → Option (C l)) (lhs : EinOp (C l)) (rhs : MixedExpr C r)
    (m : TypedMem C) (i : Index) : Option (TypedMem C) := do
  let y ← rhs.eval m i
  let a ← lhs.address i
  let x ← f (m l a) y
  pure (m.set l a x)

/-- ein_reduce.h:418-443 `ein_reduce(lhs op rhs)`. -/
def mixedReduce [DecidableEq τ] {l r : τ} (f : C l → C r → Option (C l)) (lhs : EinOp (C l)) (rhs : MixedExpr C r)
    (m : TypedMem C) : Option (TypedMem C) := do
  let tr ← (einLoopShape lhs.untyped rhs.untyped).forEachIndex
  tr.foldlM (mixedStep f lhs rhs) m

/-- array.h:2956-2968 `equal(array_ref<TA>, array_ref<TB>)`; `ne` is `a != b`. -/
def equalBetween {α β : Type} (ne : α → β → Bool) (ma : Mem α) (mb : Mem β) (a b : ArrayRef) : Bool :=
  if a.shape.mins ≠ b.shape.mins ∨ a.shape.extents ≠ b.shape.extents then false
  else (copyForEachValue a.shape a.base b.shape b.base).foldl
    (fun result p => if ne (ma p.1) (mb p.2) then false else result) true

/-- The expression with one element type and operators that are defined for all values. -/
def EinExpr.mixed {α : Type} : EinExpr α → MixedExpr (fun _ : Unit => α) ()
  | .op o => .op o
  | .unary f e => .unary (fun x => some (f x)) e.mixed
  | .binary f a b => .binary (fun x y => some (f x y)) a.mixed b.mixed

end Nda
