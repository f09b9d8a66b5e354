import Verif.Model.EinTiling
import Verif.Model.TileLevels
/-
Einstein reductions on tiles of tiles: README.md:338-344 with the tile `C_ijo` split again before the reduction,

  for (auto io : split(C.i(), outer)) {
    for (auto jo : split(C.j(), outer)) {
      auto C_ijo = C(io, jo);
      for (auto ii : split<inner>(C_ijo.i())) {
        for (auto ji : split<inner>(C_ijo.j())) {
          auto tile = C_ijo(ii, ji);
          fill(tile, 0.0f);
          ein_reduce(ein<i, j>(tile) += ein<i, k>(A) * ein<k, j>(B));
        }
      }
    }
  }

for any number of levels.
-/
namespace Nda
variable {α : Type}

/-- README.md:338-344, level by level: the tile of one level is the array of the next one, with the type that `operator()`
gives it.  `order` is the order of the tiles of a level, which depends on how its loops are nested. -/
def reduceLevels (debug : Bool) (f : α → α → α) (init : Option α) (order : List (List Arg) → List (List Arg)) :
    List (List Cut) → Option Int → List SDim → List Nat → EinExpr α → Mem α → Option (Mem α)
  | [], base, dims, is, rhs, m =>
    einReduceDebug debug f ⟨.arr base dims, is⟩ rhs (fillReduced init ⟨base, values dims⟩ m)
  | cs :: rest, base, dims, is, rhs, m => do
    let ts ← tileLoops cs (values dims)
    (order ts).foldlM (fun m t => do
      requireAssert debug (typedViewAssert dims (List.zipWith Cut.typed cs t))
      reduceLevels debug f init order rest (ArrayRef.crop ⟨base, values dims⟩ t).base
        (typedView dims (List.zipWith Cut.typed cs t)) is rhs m) m

end Nda
