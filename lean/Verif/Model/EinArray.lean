import Verif.Model.Array
import Verif.Model.Ein
/-
Model of `ein_reduce` and `make_ein_sum` (ein_reduce.h) as statements of a program with arrays (`Verif.Model.Array`).
The operands are views of arrays of the program; a view has a shape of any rank.  The bounds of the loops are those of
`Verif.Model.Ein`; what is added here are reading and assigning elements of arrays, which may be out of bounds or dead, and
the lifetime of the result of `make_ein_sum`.
-/
namespace Nda

/-- ein_reduce.h:73-76 `ein_op<Op, Is...>` where `op` is the `array_ref` with dims `dims` whose base pointer is `off`
elements after the one of array `x`; `ein<Is...>(array)` has the dims of the array and `off = 0` (ein_reduce.h:337-346). -/
structure EinRef where
  x : Nat
  dims : List SDim
  off : Int
  is : List Nat

/-- Expressions as in `EinExpr`: views, other callable objects, unary and binary operators. -/
inductive EinTerm (V : Type) where
  | ref (r : EinRef)
  | fn (f : Index → V) (is : List Nat)
  | unary (f : V → V) (e : EinTerm V)
  | binary (f : V → V → V) (a b : EinTerm V)

section
variable {V : Type}

/-- The operand as far as the bounds of loops are concerned. -/
def EinRef.op (r : EinRef) : EinOp V := ⟨.arr (some r.off) r.dims, r.is⟩

/-- The expression as far as the bounds of loops are concerned. -/
def EinTerm.expr : EinTerm V → EinExpr V
  | .ref r => .op r.op
  | .fn f is => .op ⟨.fn f, is⟩
  | .unary f e => .unary f e.expr
  | .binary f a b => .binary f a.expr b.expr

/-- ein_reduce.h:84-87: the arguments `std::get<Is>(i)...`. -/
def einArgs (is : List Nat) (i : Index) : Index := is.map fun k => i.getD k default

/-- ein_reduce.h:84-87 `ein_op::operator()`: the element a view has for a loop index. -/
def EinRef.cell (r : EinRef) (i : Index) (w : World V) : Except Fault (Nat × Int) := do
  let a ← w.get r.x
  match a.base with
  | none => .error .null
  | some (b, p) => .ok (b, p + r.off + (values r.dims).flatOffset (einArgs r.is i))

/-- ein_reduce.h:84-87, 121-124, 137-140, 164-167, 176-181: `operator()` of an expression that is not an assignment. -/
def EinTerm.eval (i : Index) (w : World V) : EinTerm V → Except Fault V
  | .ref r => do
    let c ← r.cell i w
    readAt w c.1 c.2
  | .fn f is => .ok (f (einArgs is i))
  | .unary f e => do
    let x ← e.eval i w
    .ok (f x)
  | .binary f a b => do
    let x ← a.eval i w
    let y ← b.eval i w
    .ok (f x y)

/-- ein_reduce.h:164-167, 193-196: `lhs(i) op= rhs(i)`. -/
def einStepArray (f : V → V → V) (lhs : EinRef) (rhs : EinTerm V) (i : Index) (w : World V) :
    Except Fault (World V) := do
  let y ← rhs.eval i w
  let c ← lhs.cell i w
  replaceAt c.1 (fun x => f x y) c.2 w

/-- ein_reduce.h:418-443 `ein_reduce(lhs op= rhs)`. -/
def einReduceArray (ty : Types V) (f : V → V → V) (lhs : EinRef) (rhs : EinTerm V) (w : World V) :
    Except Fault (World V) := do
  let w ← assert ty (einAssert lhs.op rhs.expr) w
  match (einLoopShape lhs.op rhs.expr).forEachIndex with
  | none => .error .noEnd
  | some tr => tr.foldlM (fun w i => einStepArray f lhs rhs i w) w

/-- The dims of an array whose shape type has the parameters of `dims`. -/
def withValues (dims : List SDim) (s : Shape) : List SDim := List.zipWith (fun d v => ⟨d.ty, v⟩) dims s

/-- ein_reduce.h:475-483 `make_ein_sum<T, ResultIs...>(expr, init, alloc)`; `make_array` is array.h:2749-2753.  The
result is object number `w.nextVar`. -/
def makeEinSumArray (ty : Types V) (add : V → V → V) (ris : List Nat) (e : EinTerm V) (init : V) (alloc : Nat)
    (w : World V) : Except Fault (World V) := do
  let n := w.nextVar
  let w ← assert ty (makeEinReduceShapeAssert ris e.expr) w
  let w ← newFillAlloc ty (values (makeEinReduceShape ris e.expr)) init alloc w
  let a ← w.get n
  einReduceArray ty add ⟨n, withValues (makeEinReduceShape ris e.expr) a.shape, 0, ris⟩ e w

end
end Nda
