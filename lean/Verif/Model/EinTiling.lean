import Verif.Model.Tiling
import Verif.Model.Compiles
import Verif.Model.ResampleImage
/-
Einstein reductions tile by tile, as README.md:328-345 writes them:

  for (auto io : split<tile_rows>(C.i())) {
    for (auto jo : split<tile_cols>(C.j())) {
      auto C_ijo = C(io, jo);
      fill(C_ijo, 0.0f);
      ein_reduce(ein<i, j>(C_ijo) += ein<i, k>(A) * ein<k, j>(B));
    }
  }

for results of any rank, any cuts of their dims (`Verif/Model/Tiling.lean`) and any reduction.  Only the result is
cropped; the operands are the whole arrays.
-/
namespace Nda

/-- The intervals of the loops with their types: `interval<dynamic, N>` of `split<N>` (array.h:614-620), `interval<>` of
`split` (array.h:637-642), and `_`. -/
def Cut.typed : Cut → Arg → SArg
  | .fixed N, .ivl v => .interval ⟨dynamic, N⟩ v
  | .dyn _, .ivl v => .interval ⟨dynamic, dynamic⟩ v
  | _, _ => .interval SArg.allT ⟨0, -1⟩

section
variable {α : Type}

/-- README.md:340 `auto C_ijo = C(io, jo)` as the operand `ein<is...>(C_ijo)`. -/
def einTile (cs : List Cut) (base : Option Int) (dims : List SDim) (is : List Nat) (t : List Arg) : EinOp α :=
  ⟨.arr (ArrayRef.crop ⟨base, values dims⟩ t).base (typedView dims (List.zipWith Cut.typed cs t)), is⟩

/-- README.md:341 `fill(C_ijo, v)`, or nothing. -/
def fillReduced (init : Option α) (a : ArrayRef) (m : Mem α) : Mem α :=
  match init with
  | some v => fill a v m
  | none => m

/-- README.md:340-342: the body of the loops.  `init` is the value of `fill`, or `none` if the tile is not filled. -/
def reduceTile (debug : Bool) (f : α → α → α) (init : Option α) (cs : List Cut) (base : Option Int) (dims : List SDim)
    (is : List Nat) (rhs : EinExpr α) (t : List Arg) (m : Mem α) : Option (Mem α) := do
  requireAssert debug (typedViewAssert dims (List.zipWith Cut.typed cs t))
  einReduceDebug debug f (einTile cs base dims is t) rhs (fillReduced init (ArrayRef.crop ⟨base, values dims⟩ t) m)

/-- README.md:338-344: the loops. -/
def reduceTiles (debug : Bool) (f : α → α → α) (init : Option α) (cs : List Cut) (base : Option Int) (dims : List SDim)
    (is : List Nat) (rhs : EinExpr α) (ts : List (List Arg)) (m : Mem α) : Option (Mem α) :=
  ts.foldlM (fun m t => reduceTile debug f init cs base dims is rhs t m) m

end
end Nda
