import Verif.Model.Static
import Verif.Model.Algorithms
/-
Model of ein_reduce.h: expressions over operands addressed by loop indices, the loop bounds that
`ein_reduce` derives from them, the reduction itself and `make_ein_sum`.

Simplifications: an assignment (`=`, `+=`, `-=`, `*=`) occurs only at the top of an expression;
the operators `-`, `+`, `*`, `/`, `min`, `max` and `static_cast` on the element type are total
functions on an abstract value type; a callable operand is a pure function of its arguments; the
left-hand side is an array.
-/
namespace Nda

/-- The `op` member of an operand (ein_reduce.h:73-76): an `array_ref`, whose dims have static and
run-time parts, or another callable object. -/
inductive EinSrc (α : Type) where
  | arr (base : Option Int) (dims : List SDim)
  | fn (f : Index → α)

/-- ein_reduce.h:73-76 `ein_op<Op, Is...>`, made by `ein<Is...>(op)` (ein_reduce.h:332-351). -/
structure EinOp (α : Type) where
  op : EinSrc α
  is : List Nat

/-- ein_reduce.h:353-361 `ein(scalar)`: an `array_ref` of rank 0 at the address of the scalar. -/
def einScalar {α : Type} (address : Int) : EinOp α := ⟨.arr (some address) [], []⟩

/-- ein_reduce.h:363-367 `ein<I0>(T* x, size_t N)`: `shape<dim<0, dynamic, 1>>(N)`. -/
def einPointer {α : Type} (i0 : Nat) (x : Option Int) (n : Nat) : EinOp α :=
  let t : DimT := ⟨0, dynamic, 1⟩
  ⟨.arr x [⟨t, t.ofExtent n⟩], [i0]⟩

/-- ein_reduce.h:369-373 `ein<I0>(T (&x)[N])`: `shape<dim<0, N, 1>>()`. -/
def einCArray {α : Type} (i0 : Nat) (x : Int) (n : Nat) : EinOp α :=
  let t : DimT := ⟨0, n, 1⟩
  ⟨.arr (some x) [⟨t, t.default_⟩], [i0]⟩

/-- Expressions: ein_reduce.h:73 `ein_op`, 107-142 `ein_unary_op` (`f` is the negation or the cast) and
144-191 `ein_binary_op` (`f` is `+`, `-`, `*`, `/`, `min` or `max`). -/
inductive EinExpr (α : Type) where
  | op (o : EinOp α)
  | unary (f : α → α) (e : EinExpr α)
  | binary (f : α → α → α) (a b : EinExpr α)

section
variable {α : Type}

/-- ein_reduce.h:79 `ein_op::MaxIndex`. -/
def EinOp.maxIndex (o : EinOp α) : Int :=
  if o.is.length = 0 then -1 else variadicMax (o.is.map Int.ofNat)

/-- ein_reduce.h:79, 113, 149 `MaxIndex`. -/
def EinExpr.maxIndex : EinExpr α → Int
  | .op o => o.maxIndex
  | .unary _ e => e.maxIndex
  | .binary _ a b => imax a.maxIndex b.maxIndex

/-- ein_reduce.h:84-87, the arguments `std::get<Is>(i)...`. -/
def EinOp.args (o : EinOp α) (i : Index) : Index := o.is.map fun k => i.getD k default

/-- ein_reduce.h:84-87 `ein_op::operator()`, the address of the element of an array operand;
`none` for a callable or a null base. -/
def EinOp.address (o : EinOp α) (i : Index) : Option Int :=
  match o.op with
  | .arr base dims => base.map (· + (values dims).flatOffset (o.args i))
  | .fn _ => none

/-- ein_reduce.h:84-87 `ein_op::operator()` as a value.  `none`: a null pointer is dereferenced. -/
def EinOp.eval (o : EinOp α) (m : Mem α) (i : Index) : Option α :=
  match o.op with
  | .arr base dims => (base.map (· + (values dims).flatOffset (o.args i))).map m
  | .fn f => some (f (o.args i))

/-- ein_reduce.h:84-87, 121-124, 137-140, 164-167, 176-181: `operator()` of an expression. -/
def EinExpr.eval (m : Mem α) (i : Index) : EinExpr α → Option α
  | .op o => o.eval m i
  | .unary f e => do
    let x ← e.eval m i
    pure (f x)
  | .binary f a b => do
    let x ← a.eval m i
    let y ← b.eval m i
    pure (f x y)

/-- The leaves of an expression, in the order `std::tuple_cat` visits them (ein_reduce.h:311-318). -/
def EinExpr.operands : EinExpr α → List (EinOp α)
  | .op o => [o]
  | .unary _ e => e.operands
  | .binary _ a b => a.operands ++ b.operands

/-- ein_reduce.h:265-273 `internal::dims_of`. -/
def EinSrc.dimsOf : EinSrc α → List SDim
  | .arr _ dims => dims
  | .fn _ => []

/-- ein_reduce.h:275-287 `internal::with_stride<NewStride>`. -/
def SDim.withStride (newStride : Int) (d : SDim) : SDim :=
  let t : DimT := ⟨d.ty.min, d.ty.extent, newStride⟩
  ⟨t, t.make d.val.min d.val.extent t.defaultStride⟩

/-- ein_reduce.h:289-292 the flags `is_inferred_shape`, `is_result_shape`, `is_operand_shape`. -/
inductive EinKind where
  | inferred
  | result
  | operand
deriving DecidableEq, Repr

/-- ein_reduce.h:294-309 `internal::gather_dims<Dim>(kind, ein_op)`. -/
def EinOp.gatherDims (k : Nat) (kind : EinKind) (o : EinOp α) : List SDim :=
  let d := getOrEmpty (indexOf k o.is) o.op.dimsOf
  match kind with
  | .result => d
  | .inferred => d.map (SDim.withStride dynamic)
  | .operand => d.map (SDim.withStride 0)

/-- ein_reduce.h:294-318 `internal::gather_dims<Dim>(kind, expr)`. -/
def EinExpr.gatherDims (k : Nat) (kind : EinKind) : EinExpr α → List SDim
  | .op o => o.gatherDims k kind
  | .unary _ e => e.gatherDims k kind
  | .binary _ a b => a.gatherDims k kind ++ b.gatherDims k kind

/-- ein_reduce.h:228-263 `internal::reconcile_dim`: the first dim, or `dim<0, 1, 0>`. -/
def reconcileDim : List SDim → SDim
  | [] => ⟨⟨0, 1, 0⟩, (DimT.mk 0 1 0).default_⟩
  | d0 :: _ => d0

/-- The assertions of ein_reduce.h:238-249. -/
def reconcileAssert : List SDim → Bool
  | [] => true
  | d0 :: ds =>
    if d0.val.stride ≠ 0 then all (ds.map fun d => d.val.isInRangeI d0.val.toInterval)
    else all (ds.map fun d => d0.val.min == d.val.min) &&
      all (ds.map fun d => d0.val.extent == d.val.extent)

/-- The compile-time requirement of ein_reduce.h:235-236. -/
def reconcileEnabled : List SDim → Bool
  | [] => true
  | d0 :: ds => !any (ds.map fun d => notEqual d0.ty.min d.ty.min) &&
      !any (ds.map fun d => notEqual d0.ty.extent d.ty.extent)

/-- ein_reduce.h:320-323 `gather_dims<Dim>(kind0, op0, kind1, op1)` as called by `ein_reduce`. -/
def einLoopDims (lhs : EinOp α) (rhs : EinExpr α) (k : Nat) : List SDim :=
  lhs.gatherDims k .result ++ rhs.gatherDims k .operand

/-- ein_reduce.h:420 `LoopRank = Expr::MaxIndex + 1`. -/
def einLoopRank (lhs : EinOp α) (rhs : EinExpr α) : Nat :=
  (imax lhs.maxIndex rhs.maxIndex + 1).toNat

/-- ein_reduce.h:324-328, 426-427: `reduction_shape`. -/
def einLoopShape (lhs : EinOp α) (rhs : EinExpr α) : Shape :=
  (List.range (einLoopRank lhs rhs)).map fun k => (reconcileDim (einLoopDims lhs rhs k)).val

/-- Every assertion executed while computing `reduction_shape`. -/
def einAssert (lhs : EinOp α) (rhs : EinExpr α) : Bool :=
  (List.range (einLoopRank lhs rhs)).all fun k => reconcileAssert (einLoopDims lhs rhs k)

/-- ein_reduce.h:164-167 with `op` one of `=`, `+=`, `-=`, `*=` (193-196): the element `x` of the left-hand
side becomes `f x y` where `y` is the value of the right-hand side.  `none`: null dereference. -/
def einStep (f : α → α → α) (lhs : EinOp α) (rhs : EinExpr α) (m : Mem α) (i : Index) :
    Option (Mem α) := do
  let y ← rhs.eval m i
  let a ← lhs.address i
  pure (m.set a (f (m a) y))

/-- ein_reduce.h:418-443 `ein_reduce(lhs op rhs)`.  `none`: a loop that does not end, or a null
dereference. -/
def einReduce (f : α → α → α) (lhs : EinOp α) (rhs : EinExpr α) (m : Mem α) : Option (Mem α) := do
  let tr ← (einLoopShape lhs rhs).forEachIndex
  tr.foldlM (einStep f lhs rhs) m

/-- ein_reduce.h:445-451 `make_ein_reduce_shape<ResultIs...>(expr)`. -/
def makeEinReduceShape (ris : List Nat) (e : EinExpr α) : List SDim :=
  makeCompact (ris.map fun k => reconcileDim (e.gatherDims k .inferred))

/-- The assertions executed by `make_ein_reduce_shape`. -/
def makeEinReduceShapeAssert (ris : List Nat) (e : EinExpr α) : Bool :=
  ris.all fun k => reconcileAssert (e.gatherDims k .inferred)

/-- ein_reduce.h:475-483 `make_ein_sum<T, ResultIs...>(expr, init)`.  `buf` is the address the
allocator returns; array.h:2282-2291 places the base there, array.h:2298-2301 constructs the elements
from `init`.  (The lifetime of the result is the subject of `Verif.Model.Array`.) -/
def makeEinSum (add : α → α → α) (ris : List Nat) (e : EinExpr α) (init : α) (buf : Int) (m : Mem α) :
    Option (List SDim × Int × Mem α) := do
  let dims := makeEinReduceShape ris e
  let base := buf - (values dims).flatMin
  let m := fill ⟨some base, values dims⟩ init m
  let m ← einReduce add ⟨.arr (some base) dims, ris⟩ e m
  pure (dims, base, m)

end
end Nda
