import Verif.Lemmas.Tiling
import Verif.Props.ZOrder
import Mathlib.Data.List.OfFn
/-
C77: loops over the tiles of an array.  `Verif/Model/Tiling.lean` has the loops of README.md:225-240 over
`split` dims and the bodies used below; `ts` is any ordering of the tiles the nested loops produce (so
loops interchanged, or z order, are included).
-/
namespace Nda
open Spec

variable {α : Type}

/-- C77: the loops end, and make one tile for each combination of the pieces of the dims. -/
theorem C77_terminates (cs : List Cut) (s : Shape) (hc : List.Forall₂ CutOk cs s) (hs : NonNeg s) :
    ∃ ts, tileLoops cs s = some ts ∧
      ∃ ns : List Nat, List.Forall₂ (fun p n => PieceCount p.1 p.2 n) (cs.zip s) ns ∧ ts.length = ns.prod := by
  obtain ⟨ts, e, _, _, _, h⟩ := tileLoops_ok hc hs
  exact ⟨ts, e, h⟩

section
variable {cs : List Cut} {a : ArrayRef} {ts ts' : List (List Arg)}

/-- C77: every element of a tile is the element of the array with the same index. -/
theorem C77_inside (hc : List.Forall₂ CutOk cs a.shape) (hs : NonNeg a.shape)
    (e : tileLoops cs a.shape = some ts') (hp : ts.Perm ts') (t : List Arg) (ht : t ∈ ts) (i : Index)
    (hi : InBox (a.crop t).shape i) : InBox a.shape i ∧ (a.crop t).at_ i = a.at_ i := by
  have h := (tiled_perm hc hs e hp).1.piece t ht
  have hb := ((tiled_inBox_iff h i).1 hi).1
  obtain ⟨h1, h2, h3⟩ := tiled_fullIndex h
  have hl := inBox_length hb
  refine ⟨hb, ?_⟩
  rw [C20_same_element a t h1 i (by rw [h2]; exact hl), h3 i hl]

/-- C77: every element of the array is in a tile; if no dim has an extent that its compile-time factor
does not divide, in exactly one. -/
theorem C77_cover (hc : List.Forall₂ CutOk cs a.shape) (hs : NonNeg a.shape)
    (e : tileLoops cs a.shape = some ts') (hp : ts.Perm ts') (i : Index) (hi : InBox a.shape i) :
    (∃ t ∈ ts, InBox (a.crop t).shape i) ∧
    (List.Forall₂ NoOverlap cs a.shape → ∀ (j k : Nat) t u, ts[j]? = some t → ts[k]? = some u →
      InBox (a.crop t).shape i → InBox (a.crop u).shape i → j = k) := by
  obtain ⟨ht, hd⟩ := tiled_perm hc hs e hp
  refine ⟨?_, fun hno j k t u hj hk h1 h2 => ?_⟩
  · obtain ⟨t, h, hti⟩ := ht.cover i hi
    exact ⟨t, h, (tiled_inBox_iff (ht.piece t h) i).2 ⟨hi, hti⟩⟩
  · have hd := List.pairwise_iff_getElem.1 (hd hno)
    obtain ⟨hj', rfl⟩ := List.getElem?_eq_some_iff.1 hj
    obtain ⟨hk', rfl⟩ := List.getElem?_eq_some_iff.1 hk
    have p1 := ((tiled_inBox_iff (ht.piece _ (List.getElem_mem hj')) i).1 h1).2
    have p2 := ((tiled_inBox_iff (ht.piece _ (List.getElem_mem hk')) i).1 h2).2
    by_contra hne
    rcases Nat.lt_or_gt_of_ne hne with hlt | hlt
    · exact hd j k hj' hk' hlt i ⟨p1, p2⟩
    · exact hd k j hk' hj' hlt i ⟨p2, p1⟩

/-- C77: without overlap, `for_each_value` of the tiles visits what `for_each_value` of the array visits,
equally often. -/
theorem C77_for_each_value {b : Int} (hb : a.base = some b) (hc : List.Forall₂ CutOk cs a.shape)
    (hs : NonNeg a.shape) (hno : List.Forall₂ NoOverlap cs a.shape) (e : tileLoops cs a.shape = some ts')
    (hp : ts.Perm ts') : (ts.flatMap fun t => (a.crop t).forEachValue).Perm a.forEachValue := by
  obtain ⟨ht, hd⟩ := tiled_perm hc hs e hp
  exact tiled_trace hb hs ht (hd hno)

/-- C77: `fill` of every tile is `fill` of the array. -/
theorem C77_fill {b : Int} (hb : a.base = some b) (hc : List.Forall₂ CutOk cs a.shape) (hs : NonNeg a.shape)
    (e : tileLoops cs a.shape = some ts') (hp : ts.Perm ts') (v : α) (m : Mem α) :
    fillTiles a ts v m = fill a v m := by
  obtain ⟨ht, _⟩ := tiled_perm hc hs e hp
  obtain ⟨m', e', h1, h2⟩ := tiled_fold ht (fun t m => some (fill (a.crop t) v m))
    (fun i => b + offsetOf a.shape i) (fun _ => v) (fun _ => True) (fun _ _ _ _ _ => rfl)
    (by
      intro t h m _
      obtain ⟨b', hb', ea⟩ := tiled_address hb (ht.piece t h)
      obtain ⟨f1, f2⟩ := C19_fill (a.crop t) b' hb' (tiled_nonNeg (ht.piece t h) hs) v m
      have hl : ∀ i, InBox (a.shape.crop t) i → i.length = a.shape.length := fun i hi =>
        inBox_length ((tiled_inBox_iff (ht.piece t h) i).1 hi).1
      refine ⟨_, rfl, fun i hi => ?_, fun x hx => f2 x fun i hi => ?_⟩
      · rw [← ea i (hl i hi)]; exact f1 i hi
      · rw [ea i (hl i hi)]; exact hx i hi)
    (fun _ _ _ _ => trivial) m trivial
  rw [foldlM_some_op, Option.some.injEq] at e'
  obtain ⟨g1, g2⟩ := C19_fill a b hb hs v m
  unfold fillTiles
  rw [e']
  exact mem_ext_elems h1 h2 g1 g2

/-- C77: `transform_index` of every tile is `transform_index` of the array (the indices given to the
function are the same). -/
theorem C77_transform_index {b : Int} (hb : a.base = some b) (hc : List.Forall₂ CutOk cs a.shape)
    (hs : NonNeg a.shape) (hi : Injective a.shape) (e : tileLoops cs a.shape = some ts') (hp : ts.Perm ts')
    (fn : Index → α) (m : Mem α) :
    ∃ m', transformIndexTiles a ts fn m = some m' ∧ transformIndex a fn m = some m' := by
  obtain ⟨ht, _⟩ := tiled_perm hc hs e hp
  obtain ⟨m', e', h1, h2⟩ := tiled_fold ht (fun t m => transformIndex (a.crop t) fn m)
    (fun i => b + offsetOf a.shape i) fn (fun _ => True)
    (fun i j h1 h2 h => by rw [hi i j h1 h2 (by omega)])
    (by
      intro t h m _
      obtain ⟨b', hb', ea⟩ := tiled_address hb (ht.piece t h)
      have hl : ∀ i, InBox (a.shape.crop t) i → InBox a.shape i := fun i hi =>
        ((tiled_inBox_iff (ht.piece t h) i).1 hi).1
      have hinj : Injective (a.crop t).shape := by
        intro i j h1 h2 h
        refine hi i j (hl i h1) (hl j h2) ?_
        have e1 := ea i (inBox_length (hl i h1))
        have e2 := ea j (inBox_length (hl j h2))
        omega
      obtain ⟨m', f0, f1, f2⟩ := C19_transform_index (a.crop t) b' hb' (tiled_nonNeg (ht.piece t h) hs) hinj fn m
      refine ⟨m', f0, fun i hi => ?_, fun x hx => f2 x fun i hi => ?_⟩
      · rw [← ea i (inBox_length (hl i hi))]; exact f1 i hi
      · rw [ea i (inBox_length (hl i hi))]; exact hx i hi)
    (fun _ _ _ _ => trivial) m trivial
  obtain ⟨m'', e'', g1, g2⟩ := C19_transform_index a b hb hs hi fn m
  obtain rfl := mem_ext_elems h1 h2 g1 g2
  exact ⟨m', e', e''⟩

/-- C77: `copy` into every tile, from the whole source or from the same tile of it, is `copy` of the
array. -/
theorem C77_copy {src : ArrayRef} {b sb : Int} (hb : a.base = some b) (hsb : src.base = some sb)
    (hc : List.Forall₂ CutOk cs a.shape) (hs : NonNeg a.shape) (hi : Injective a.shape)
    (hl : List.length src.shape = a.shape.length) (hin : ∀ i, InBox a.shape i → InBox src.shape i)
    (hdis : DisjointElems src.shape sb a.shape b) (e : tileLoops cs a.shape = some ts') (hp : ts.Perm ts')
    (conv : α → α) (m : Mem α) :
    copyTiles conv src a ts m = copy conv src a m := by
  obtain ⟨ht, _⟩ := tiled_perm hc hs e hp
  obtain ⟨m', e', h1, h2⟩ := tiled_fold ht (fun t m => some (copy conv src (a.crop t) m))
    (fun i => b + offsetOf a.shape i) (fun i => conv (m (sb + offsetOf src.shape i)))
    (fun m' => ∀ i, InBox src.shape i → m' (sb + offsetOf src.shape i) = m (sb + offsetOf src.shape i))
    (fun i j h1 h2 h => by rw [hi i j h1 h2 (by omega)])
    (by
      intro t h m1 hm1
      obtain ⟨b', hb', ea⟩ := tiled_address hb (ht.piece t h)
      have hbox : ∀ i, InBox (a.shape.crop t) i → InBox a.shape i := fun i hi =>
        ((tiled_inBox_iff (ht.piece t h) i).1 hi).1
      have hinj : Injective (a.crop t).shape := by
        intro i j h1 h2 h
        refine hi i j (hbox i h1) (hbox j h2) ?_
        have e1 := ea i (inBox_length (hbox i h1))
        have e2 := ea j (inBox_length (hbox j h2))
        omega
      have hlen : List.length src.shape = (a.crop t).shape.length := by
        rw [hl]
        obtain ⟨q1, q2, _⟩ := tiled_fullIndex (ht.piece t h)
        exact (q2 ▸ crop_length q1).symm
      obtain ⟨f1, f2⟩ := C15_copy conv src (a.crop t) sb b' hsb hb' hlen (tiled_nonNeg (ht.piece t h) hs)
        (fun i hi => hin i (hbox i hi)) hinj
        (fun i j h1 h2 => by
          rw [ea j (inBox_length (hbox j h2))]; exact hdis i j h1 (hbox j h2)) m1
      refine ⟨_, rfl, fun i hi => ?_, fun x hx => f2 x fun i hi => ?_⟩
      · rw [← ea i (inBox_length (hbox i hi)), f1 i hi, hm1 i (hin i (hbox i hi))]
      · rw [ea i (inBox_length (hbox i hi))]; exact hx i hi)
    (by
      intro m1 m2 h1 h2 i hi
      rw [h2 _ fun j hj => hdis i j hi hj]; exact h1 i hi)
    m (fun _ _ => rfl)
  rw [foldlM_some_op, Option.some.injEq] at e'
  obtain ⟨g1, g2⟩ := C15_copy conv src a sb b hsb hb hl hs hin hi hdis m
  unfold copyTiles
  rw [e']
  exact mem_ext_elems h1 h2 g1 g2

/-- C77: `copy` from each tile of the source to the same tile of the destination is `copy` of the array. -/
theorem C77_copy_both {src : ArrayRef} {b sb : Int} (hb : a.base = some b) (hsb : src.base = some sb)
    (hc : List.Forall₂ CutOk cs a.shape) (hs : NonNeg a.shape) (hi : Injective a.shape)
    (hl : List.length src.shape = a.shape.length) (hin : ∀ i, InBox a.shape i → InBox src.shape i)
    (hdis : DisjointElems src.shape sb a.shape b) (e : tileLoops cs a.shape = some ts') (hp : ts.Perm ts')
    (conv : α → α) (m : Mem α) :
    copyTilesBoth conv src a ts m = copy conv src a m := by
  rw [← C77_copy hb hsb hc hs hi hl hin hdis e hp conv m]
  obtain ⟨ht, _⟩ := tiled_perm hc hs e hp
  unfold copyTilesBoth copyTiles
  refine List.foldl_ext _ _ _ fun m1 t h => ?_
  obtain ⟨b', hb', ea⟩ := tiled_address hb (ht.piece t h)
  have hbox : ∀ i, InBox (a.shape.crop t) i → InBox a.shape i ∧ TileHas t i := fun i hi =>
    (tiled_inBox_iff (ht.piece t h) i).1 hi
  have hnn := tiled_nonNeg (ht.piece t h) hs
  by_cases hpos : Pos (a.crop t).shape
  swap
  · rw [(C16_empty_noop conv conv (src.crop t) (a.crop t) hnn hpos m1).1,
      (C16_empty_noop conv conv src (a.crop t) hnn hpos m1).1]
  obtain ⟨i0, hi0⟩ := exists_inBox_iff.2 hpos
  have hpiece := piece_inside (ht.piece t h) (dims_inside (hbox i0 hi0).1 hin)
  obtain ⟨sb', hsb', es⟩ := tiled_address hsb hpiece
  have hsbox : ∀ i, InBox (src.shape.crop t) i → InBox src.shape i := fun i hi =>
    ((tiled_inBox_iff hpiece i).1 hi).1
  have hinj : Injective (a.crop t).shape := by
    intro i j h1 h2 h
    refine hi i j (hbox i h1).1 (hbox j h2).1 ?_
    have e1 := ea i (inBox_length (hbox i h1).1)
    have e2 := ea j (inBox_length (hbox j h2).1)
    omega
  obtain ⟨q1, q2, _⟩ := tiled_fullIndex (ht.piece t h)
  obtain ⟨r1, r2, _⟩ := tiled_fullIndex hpiece
  have hlen : List.length src.shape = (a.crop t).shape.length := by
    rw [hl]; exact (q2 ▸ crop_length q1).symm
  have hlen' : List.length (src.crop t).shape = (a.crop t).shape.length := by
    rw [← hlen]; exact r2 ▸ crop_length r1
  obtain ⟨f1, f2⟩ := C15_copy conv src (a.crop t) sb b' hsb hb' hlen hnn
    (fun i hi => hin i (hbox i hi).1) hinj
    (fun i j h1 h2 => by rw [ea j (inBox_length (hbox j h2).1)]; exact hdis i j h1 (hbox j h2).1) m1
  obtain ⟨g1, g2⟩ := C15_copy conv (src.crop t) (a.crop t) sb' b' hsb' hb' hlen' hnn
    (fun i hi => (tiled_inBox_iff hpiece i).2 ⟨hin i (hbox i hi).1, (hbox i hi).2⟩) hinj
    (fun i j h1 h2 => by
      rw [ea j (inBox_length (hbox j h2).1), es i (inBox_length (hsbox i h1))]
      exact hdis i j (hsbox i h1) (hbox j h2).1) m1
  refine mem_ext_elems g1 g2 (fun i hi => ?_) f2
  rw [f1 i hi, es i (inBox_length (hin i (hbox i hi).1))]

/-- C77: comparing two arrays tile by tile gives the result of `equal`. -/
theorem C77_equal {c : ArrayRef} {b b' : Int} (hb : a.base = some b) (hb' : c.base = some b')
    (hc : List.Forall₂ CutOk cs a.shape) (hs : NonNeg a.shape)
    (hm : a.shape.map Dim.min = c.shape.map Dim.min) (he : a.shape.map Dim.extent = c.shape.map Dim.extent)
    (e : tileLoops cs a.shape = some ts') (hp : ts.Perm ts') (ne : α → α → Bool) (m : Mem α) :
    equalTiles ne m a c ts = equal ne m a c := by
  obtain ⟨ht, _⟩ := tiled_perm hc hs e hp
  have hs' : NonNeg c.shape := by
    intro d hd
    have : d.extent ∈ a.shape.map Dim.extent := by rw [he]; exact List.mem_map_of_mem hd
    obtain ⟨d', hd', e⟩ := List.mem_map.1 this
    rw [← e]; exact hs d' hd'
  rw [Bool.eq_iff_iff, equalTiles_iff, C17_equal ne m a c hs' (.inl ⟨b, b', hb, hb'⟩)]
  constructor
  · intro h
    refine ⟨hm, he, ?_⟩
    rintro i x y hi hx hy
    obtain ⟨t, htm, hti⟩ := ht.cover i hi
    obtain ⟨k1, k2, k3⟩ := crop_mins_extents (ht.piece t htm) hm he
    obtain ⟨x', hx', ex⟩ := tiled_address hx (ht.piece t htm)
    obtain ⟨y', hy', ey⟩ := tiled_address hy k3
    have := ((C17_equal ne m (a.crop t) (c.crop t) (tiled_nonNeg k3 hs') (.inl ⟨x', y', hx', hy'⟩)).1
      (h t htm)).2.2 i x' y' ((tiled_inBox_iff (ht.piece t htm) i).2 ⟨hi, hti⟩) hx' hy'
    have hl := inBox_length hi
    have hl' : i.length = c.shape.length := by
      rw [hl]; simpa using congrArg List.length hm
    rw [ex i hl, ey i hl'] at this
    exact this
  · rintro ⟨_, _, h⟩ t htm
    obtain ⟨k1, k2, k3⟩ := crop_mins_extents (ht.piece t htm) hm he
    obtain ⟨x', hx', ex⟩ := tiled_address hb (ht.piece t htm)
    obtain ⟨y', hy', ey⟩ := tiled_address hb' k3
    rw [C17_equal ne m (a.crop t) (c.crop t) (tiled_nonNeg k3 hs') (.inl ⟨x', y', hx', hy'⟩)]
    refine ⟨k1, k2, ?_⟩
    intro i x y hi hx hy
    rw [hx', Option.some.injEq] at hx
    rw [hy', Option.some.injEq] at hy
    subst hx hy
    have hi' := ((tiled_inBox_iff (ht.piece t htm) i).1 hi).1
    have hl := inBox_length hi'
    have hl' : i.length = c.shape.length := by
      rw [hl]; simpa using congrArg List.length hm
    rw [ex i hl, ey i hl']
    exact h i b b' hi' hb hb'

/-- C77: updating the values in place, tile by tile, is the update of the array if the tiles do not
overlap, or if updating twice is updating once. -/
theorem C77_update {b : Int} (hb : a.base = some b) (hc : List.Forall₂ CutOk cs a.shape) (hs : NonNeg a.shape)
    (g : α → α) (hg : List.Forall₂ NoOverlap cs a.shape ∨ ∀ v, g (g v) = g v)
    (e : tileLoops cs a.shape = some ts') (hp : ts.Perm ts') (m : Mem α) :
    updateTiles a ts g m = updateValues a g m := by
  obtain ⟨ht, hd⟩ := tiled_perm hc hs e hp
  have e1 : updateTiles a ts g m =
      (ts.flatMap fun t => (a.crop t).forEachValue).foldl (fun m x => m.set x (g (m x))) m := by
    rw [List.foldl_flatMap]; rfl
  rw [e1]
  funext x
  unfold updateValues
  rw [foldl_update, foldl_update]
  rcases hg with hno | hg
  · rw [(tiled_trace hb hs ht (hd hno)).count_eq]
  · have hk : ∀ k v, g^[k + 1] v = g v := by
      intro k
      induction k with
      | zero => intro v; rfl
      | succ k ih => intro v; rw [Function.iterate_succ_apply, ih, hg]
    by_cases hx : x ∈ a.forEachValue
    · obtain ⟨p, hp1⟩ := Nat.exists_eq_succ_of_ne_zero (List.count_pos_iff.2 hx).ne'
      obtain ⟨q, hq1⟩ := Nat.exists_eq_succ_of_ne_zero
        (List.count_pos_iff.2 ((tiled_trace_mem hb hs ht x).2 hx)).ne'
      rw [hp1, hq1, hk, hk]
    · rw [List.count_eq_zero.2 hx, List.count_eq_zero.2 fun h => hx ((tiled_trace_mem hb hs ht x).1 h)]

end

/-- C77: without these hypotheses the result differs: with `split<2>` of a dim of extent 3 the middle
element is in both tiles, and incremented twice. -/
theorem C77_update_counterexample :
    ∃ (cs : List Cut) (a : ArrayRef) (ts : List (List Arg)) (m : Mem Int), List.Forall₂ CutOk cs a.shape ∧
      tileLoops cs a.shape = some ts ∧ updateValues a (· + 1) m 1 = 1 ∧ updateTiles a ts (· + 1) m 1 = 2 := by
  have e : (splitStatic 2 ⟨0, 3⟩).iterate = some [⟨0, 2⟩, ⟨1, 2⟩] := statIterate (by decide) (by decide)
  refine ⟨[.fixed 2], ⟨some 0, [⟨0, 3, 1⟩]⟩, [[.ivl ⟨0, 2⟩], [.ivl ⟨1, 2⟩]], fun _ => 0, ?_, ?_, ?_, ?_⟩
  · exact .cons ⟨by decide, by decide⟩ .nil
  · simp [tileLoops, Cut.args, e]
  · decide +kernel
  · decide +kernel

/-- C77: loops over the tiles in z order (z_order.h:99-104): for a shape with elements, the function is
called once for every tile of the nested loops. -/
theorem C77_z_order {n : Nat} (cut : Fin (n + 1) → Cut) (s : Fin (n + 1) → Dim) (hc : ∀ d, CutOk (cut d) (s d))
    (hs : ∀ d, 0 < (s d).extent) :
    ∃ (ranges : Fin (n + 1) → List Arg) (tr : List (Fin (n + 1) → Option Arg)) (ts ts' : List (List Arg)),
      (∀ d, (cut d).args (s d) = some (ranges d)) ∧ forEachInZOrder ranges = some tr ∧
      tr.map List.ofFn = ts.map (List.map some) ∧ tileLoops (List.ofFn cut) (List.ofFn s) = some ts' ∧
      ts.Perm ts' := by
  choose ranges hr hnd hne using fun d => cut_args_nodup (hc d) (hs d)
  obtain ⟨pos, tr, e, e', hpn, hpm, _⟩ := C40_ranges ranges hne
  obtain ⟨ts', g0, g1, g2⟩ := tileLoops_sections (cs := List.ofFn cut) (s := List.ofFn s) (ls := List.ofFn ranges)
    (by
      rw [List.forall₂_iff_get]
      refine ⟨by simp, fun k h1 h2 => ?_⟩
      simp only [List.get_eq_getElem, List.getElem_zip, List.getElem_ofFn]
      exact hr _) (by simp)
  have hget : ∀ i ∈ pos, ∀ d, (ranges d)[i d]? = some ((ranges d).getD (i d) .all) := by
    intro i hi d
    have := (hpm i).1 hi d
    rw [List.getD_eq_getElem?_getD, List.getElem?_eq_getElem this]; rfl
  refine ⟨ranges, tr, pos.map fun i => List.ofFn fun d => (ranges d).getD (i d) .all, ts', hr, e, ?_, g0, ?_⟩
  · rw [e', List.map_map, List.map_map]
    refine List.map_congr_left fun i hi => ?_
    simp only [Function.comp, List.map_ofFn]
    congr 1
    funext d
    exact hget i hi d
  · refine (List.perm_ext_iff_of_nodup ?_ (g2 ?_)).2 fun t => ?_
    · refine (List.nodup_map_iff_inj_on hpn).2 ?_
      intro i hi j hj hij
      funext d
      have h := congrFun (List.ofFn_injective hij) d
      refine (List.getElem?_inj ((hpm i).1 hi d) (hnd d)).1 ?_
      rw [hget i hi d, hget j hj d, h]
    · intro l hl
      obtain ⟨d, rfl⟩ := List.mem_ofFn.1 hl
      exact hnd d
    · rw [g1, List.mem_map]
      constructor
      · rintro ⟨i, hi, rfl⟩
        rw [List.forall₂_iff_get]
        refine ⟨by simp, fun k h1 h2 => ?_⟩
        simp only [List.get_eq_getElem, List.getElem_ofFn]
        exact List.mem_of_getElem? (hget i hi _)
      · intro ht
        rw [List.forall₂_iff_get] at ht
        obtain ⟨hl, ht⟩ := ht
        have hl : t.length = n + 1 := by simpa using hl
        have : ∀ d : Fin (n + 1), ∃ k, k < (ranges d).length ∧ (ranges d).getD k .all = t.get ⟨d, by omega⟩ := by
          intro d
          have := ht d (by omega) (by simp)
          simp only [List.get_eq_getElem, List.getElem_ofFn] at this
          obtain ⟨k, hk, e⟩ := List.getElem_of_mem this
          exact ⟨k, hk, by rw [List.getD_eq_getElem?_getD, List.getElem?_eq_getElem hk, Option.getD_some]; exact e⟩
        choose i hi hi' using this
        refine ⟨i, (hpm i).2 hi, ?_⟩
        refine List.ext_getElem (by simp [hl]) fun k h1 h2 => ?_
        rw [List.getElem_ofFn, hi']
        rfl

/-! ### Concrete cases -/

/-- The array of README.md:229-240, with extents 5, 7, 2: `x` in pieces of 3 (the second moved back),
`y` in pieces of 5 and 2, all of `z`. -/
theorem readme_tiles : tileLoops [.fixed 3, .dyn 5, .keep] [⟨0, 5, 1⟩, ⟨0, 7, 5⟩, ⟨0, 2, 35⟩] =
    some [[.ivl ⟨0, 3⟩, .ivl ⟨0, 5⟩, .all], [.ivl ⟨2, 3⟩, .ivl ⟨0, 5⟩, .all],
      [.ivl ⟨0, 3⟩, .ivl ⟨5, 2⟩, .all], [.ivl ⟨2, 3⟩, .ivl ⟨5, 2⟩, .all]] := by
  have e1 : (splitStatic 3 ⟨0, 5⟩).iterate = some [⟨0, 3⟩, ⟨2, 3⟩] := statIterate (by decide) (by decide)
  have e2 : (splitDynamic ⟨0, 7⟩ 5).iterate = some [⟨0, 5⟩, ⟨5, 2⟩] := dynIterate (by decide) (by decide)
  simp [tileLoops, Cut.args, e1, e2]

/-- Filling these tiles in reverse order. -/
example (m : Mem Int) : fillTiles ⟨some 0, [⟨0, 5, 1⟩, ⟨0, 7, 5⟩, ⟨0, 2, 35⟩]⟩
      [[.ivl ⟨2, 3⟩, .ivl ⟨5, 2⟩, .all], [.ivl ⟨0, 3⟩, .ivl ⟨5, 2⟩, .all],
        [.ivl ⟨2, 3⟩, .ivl ⟨0, 5⟩, .all], [.ivl ⟨0, 3⟩, .ivl ⟨0, 5⟩, .all]] 7 m =
    fill ⟨some 0, [⟨0, 5, 1⟩, ⟨0, 7, 5⟩, ⟨0, 2, 35⟩]⟩ 7 m :=
  C77_fill (cs := [.fixed 3, .dyn 5, .keep]) (a := ⟨some 0, [⟨0, 5, 1⟩, ⟨0, 7, 5⟩, ⟨0, 2, 35⟩]⟩) rfl (by simp [CutOk])
    (by simp [NonNeg]) readme_tiles (List.reverse_perm _) 7 m

/-- Doubling the values of a 4 x 3 array in tiles of 2 x 2: the factor 2 divides 4, and `y` is split by
a run-time factor. -/
example (m : Mem Int) : ∃ ts, tileLoops [.fixed 2, .dyn 2] [⟨0, 4, 1⟩, ⟨0, 3, 4⟩] = some ts ∧ ts.length = 4 ∧
    updateTiles ⟨some 0, [⟨0, 4, 1⟩, ⟨0, 3, 4⟩]⟩ ts (2 * ·) m =
      updateValues ⟨some 0, [⟨0, 4, 1⟩, ⟨0, 3, 4⟩]⟩ (2 * ·) m := by
  have e1 : (splitStatic 2 ⟨0, 4⟩).iterate = some [⟨0, 2⟩, ⟨2, 2⟩] := statIterate (by decide) (by decide)
  have e2 : (splitDynamic ⟨0, 3⟩ 2).iterate = some [⟨0, 2⟩, ⟨2, 1⟩] := dynIterate (by decide) (by decide)
  have e : tileLoops [.fixed 2, .dyn 2] [⟨0, 4, 1⟩, ⟨0, 3, 4⟩] =
      some [[.ivl ⟨0, 2⟩, .ivl ⟨0, 2⟩], [.ivl ⟨2, 2⟩, .ivl ⟨0, 2⟩], [.ivl ⟨0, 2⟩, .ivl ⟨2, 1⟩],
        [.ivl ⟨2, 2⟩, .ivl ⟨2, 1⟩]] := by simp [tileLoops, Cut.args, e1, e2]
  refine ⟨_, e, rfl, ?_⟩
  exact C77_update (cs := [.fixed 2, .dyn 2]) rfl (by simp [CutOk])
    (by simp [NonNeg]) _ (.inl (by simp [NoOverlap])) e (List.Perm.refl _) m

end Nda
