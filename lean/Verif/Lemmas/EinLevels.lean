import Verif.Model.EinLevels
import Verif.Lemmas.TileLevels
import Verif.Props.EinTiling
/-
Lemmas for C104: a tile of the result is again a result that can be tiled.
-/
namespace Nda
open Spec
variable {α : Type} {cs : List Cut} {lb b' : Int} {dims : List SDim} {is : List Nat} {rhs : EinExpr α} {t : List Arg}

theorem tileInput_tile (H : TileInput dims is lb rhs) (hty : List.Forall₂ PieceTyped cs t)
    (ht : List.Forall₂ PieceOf t (values dims)) (hb : (ArrayRef.crop ⟨some lb, values dims⟩ t).base = some b') :
    TileInput (typedView dims (List.zipWith Cut.typed cs t)) is b' rhs := by
  have e : (einTile cs (some lb) dims is t : EinOp α) = ⟨.arr (some b') (typedView dims (List.zipWith Cut.typed cs t)), is⟩ := by
    unfold einTile
    rw [hb]
  refine ⟨e ▸ einInput_einTile H hty ht, H.nodup, fun d hd => ?_, e ▸ einAssert_einTile H hty ht⟩
  have hv := (einTile_vals hty ht H.fits).1
  have hmem : d.val ∈ (values dims).crop t := by
    rw [← hv]
    exact List.mem_map_of_mem hd
  obtain ⟨k, hk, ek⟩ := List.getElem_of_mem hmem
  have hp := crop_pieces ht
  have hk' : k < (values dims).length := by rw [hp.length_eq]; exact hk
  have := ((List.forall₂_iff_get.1 hp).2 k hk' hk).2
  simp only [List.get_eq_getElem, ek] at this
  rw [this]
  obtain ⟨sd, hsd, esd⟩ := List.mem_map.1 (List.getElem_mem hk')
  rw [← esd]
  exact H.strides sd hsd

/-- One level: if the inner loops on each tile do what `fill` and `ein_reduce` of the tile do, then the level does what the
loops over its tiles do. -/
theorem reduceLevels_step {debug : Bool} {f : α → α → α} {init : Option α} {order : List (List Arg) → List (List Arg)}
    {rest : List (List Cut)} {ts : List (List Arg)} (e : tileLoops cs (values dims) = some ts)
    (h : ∀ t ∈ order ts, ∀ m, reduceLevels debug f init order rest (ArrayRef.crop ⟨some lb, values dims⟩ t).base
        (typedView dims (List.zipWith Cut.typed cs t)) is rhs m =
      einReduceDebug debug f (einTile cs (some lb) dims is t) rhs
        (fillReduced init (ArrayRef.crop ⟨some lb, values dims⟩ t) m)) (m : Mem α) :
    reduceLevels debug f init order (cs :: rest) (some lb) dims is rhs m =
      reduceTiles debug f init cs (some lb) dims is rhs (order ts) m := by
  rw [reduceLevels, e]
  simp only [Option.bind_eq_bind, Option.bind_some]
  unfold reduceTiles
  revert h
  generalize order ts = l
  intro h
  induction l generalizing m with
  | nil => rfl
  | cons t l ih =>
    rw [List.foldlM_cons, List.foldlM_cons]
    have e1 : (do
        requireAssert debug (typedViewAssert dims (List.zipWith Cut.typed cs t))
        reduceLevels debug f init order rest (ArrayRef.crop ⟨some lb, values dims⟩ t).base
          (typedView dims (List.zipWith Cut.typed cs t)) is rhs m : Option (Mem α)) =
        reduceTile debug f init cs (some lb) dims is rhs t m := by
      unfold reduceTile
      rw [h t (by simp)]
    simp only [Option.bind_eq_bind] at e1 ⊢
    rw [e1]
    congr 1
    funext m'
    exact ih m' fun t ht => h t (by simp [ht])

end Nda
