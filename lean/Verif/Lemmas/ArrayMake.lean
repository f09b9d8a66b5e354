import Verif.Lemmas.ArrayReshape
import Verif.Props.Algorithms
/-
`make_copy` and `make_move`.
-/
namespace Nda
open Spec

variable {V : Type} [Hollow V]

theorem inBox_of_refines {s t : List Dim} (h : RefinesStrides s t) (i : List Int) : InBox t i ↔ InBox s i := by
  unfold RefinesStrides at h
  induction h generalizing i with
  | nil => exact Iff.rfl
  | cons hxy _ ih =>
    rw [inBox_cons_iff, inBox_cons_iff]
    constructor
    · rintro ⟨a, is, rfl, hx, hi⟩
      exact ⟨a, is, rfl, by rw [← hxy.1, ← hxy.2.1]; exact hx, (ih is).1 hi⟩
    · rintro ⟨a, is, rfl, hx, hi⟩
      exact ⟨a, is, rfl, by rw [hxy.1, hxy.2.1]; exact hx, (ih is).2 hi⟩

theorem inBox_resolve (s : Shape) (i : Index) : InBox s.resolve i ↔ InBox s i :=
  inBox_of_refines (resolve_refines s) i

/-- The loop of `copy_assign` from another block. -/
theorem copyAssign_loop {bs bd : Nat} (hne : bs ≠ bd) (tr : List (Int × Int)) (w : World V)
    (sb db : Block V) (hs : w.heap bs = some sb) (hd : w.heap bd = some db)
    (hrs : ∀ p ∈ tr, 0 ≤ p.1 ∧ p.1 < sb.size) (hls : ∀ p ∈ tr, 0 < sb.live p.1)
    (hrd : ∀ p ∈ tr, 0 ≤ p.2 ∧ p.2 < db.size) (hld : ∀ p ∈ tr, 0 < db.live p.2) :
    ∃ w' val, tr.foldlM (fun w p => copyAssignAt bs bd p w) w = .ok w' ∧
      SameBut (· = bd) w w' ∧ w'.calls = w.calls ++ List.replicate tr.length .copyAssign ∧
      w'.heap bd = some { db with val := val } ∧
      (∀ o, o ∈ tr.map Prod.snd → ∃ p ∈ tr, p.2 = o ∧ val o = sb.val p.1) ∧
      (∀ o, o ∉ tr.map Prod.snd → val o = db.val o) := by
  induction tr generalizing w db with
  | nil => exact ⟨w, db.val, rfl, SameBut.refl _ _, by simp, by simpa using hd, by simp, by simp⟩
  | cons q tr ih =>
    have hq := hrs q (by simp)
    have hq2 := hrd q (by simp)
    obtain ⟨w1, e1, s1, c1, h1⟩ := assignAt_ok hd hq2.1 hq2.2 (hld q (by simp)) .copyAssign (sb.val q.1)
    obtain ⟨w2, val, e2, s2, c2, h2, v2, u2⟩ := ih w1 _ (by rw [s1.heap _ hne, hs]) h1
      (fun p hp => hrs p (by simp [hp])) (fun p hp => hls p (by simp [hp]))
      (fun p hp => hrd p (by simp [hp])) (fun p hp => hld p (by simp [hp]))
    refine ⟨w2, val, ?_, s1.trans s2, by rw [c2, c1]; simp [List.replicate_succ], h2, ?_, ?_⟩
    · rw [List.foldlM_cons]
      have : copyAssignAt bs bd q w = .ok w1 := by
        unfold copyAssignAt
        rw [readAt_ok hs hq.1 hq.2 (hls q (by simp))]
        exact e1
      rw [this]; exact e2
    · intro o ho
      by_cases hot : o ∈ tr.map Prod.snd
      · obtain ⟨p, hp, h3, h4⟩ := v2 o hot
        exact ⟨p, by simp [hp], h3, h4⟩
      · have : o = q.2 := by
          rw [List.map_cons, List.mem_cons] at ho; tauto
        refine ⟨q, by simp, this.symm, ?_⟩
        rw [u2 o hot, this]; simp
    · intro o ho
      rw [List.map_cons, List.mem_cons, not_or] at ho
      rw [u2 o ho.2]; simp [ho.1]

/-- Both loops at once. -/
theorem assign_loop (keep : Bool) (ty : Types V) {bs bd : Nat} (hne : bs ≠ bd) (tr : List (Int × Int))
    (w : World V) (sb db : Block V) (hs : w.heap bs = some sb) (hd : w.heap bd = some db)
    (hrs : ∀ p ∈ tr, 0 ≤ p.1 ∧ p.1 < sb.size) (hls : ∀ p ∈ tr, 0 < sb.live p.1)
    (hrd : ∀ p ∈ tr, 0 ≤ p.2 ∧ p.2 < db.size) (hld : ∀ p ∈ tr, 0 < db.live p.2) :
    ∃ w' vs vd, tr.foldlM (fun w p => (if keep then copyAssignAt else moveAssignAt ty) bs bd p w) w = .ok w' ∧
      SameBut (fun c => (keep = false ∧ c = bs) ∨ c = bd) w w' ∧ w'.calls = w.calls ++ List.replicate tr.length (if keep then .copyAssign else .moveAssign) ∧
      w'.heap bs = some { sb with val := vs } ∧
      w'.heap bd = some { db with val := vd } ∧
      ((keep = true ∨ (tr.map Prod.fst).Nodup) → (tr.map Prod.snd).Nodup → ∀ p ∈ tr, vd p.2 = sb.val p.1) ∧
      ((tr.map Prod.fst).Nodup → (tr.map Prod.snd).Nodup → keep = false →
        ∀ p ∈ tr, vs p.1 = ty.moved (sb.val p.1)) ∧
      (keep = true → vs = sb.val) ∧
      (∀ o, o ∉ tr.map Prod.fst → vs o = sb.val o) := by
  cases keep with
  | true =>
    obtain ⟨w', val, e, st, c, h, v1, v2⟩ := copyAssign_loop hne tr w sb db hs hd hrs hls hrd hld
    refine ⟨w', sb.val, val, e, st.mono (by simp), c, by rw [st.heap _ hne]; exact hs, h, ?_, by simp,
      fun _ => rfl, fun _ _ => rfl⟩
    intro _ hnd p hp
    obtain ⟨q, hq, e1, e2⟩ := v1 p.2 (List.mem_map_of_mem hp)
    have : q = p := List.inj_on_of_nodup_map hnd hq hp e1
    rw [e2, this]
  | false =>
    obtain ⟨w', vs, vd, e, st, c, h1, h2, v1, v2, v3⟩ := moveAssign_loop ty hne tr w sb db hs hd hrs hls hrd hld
    refine ⟨w', vs, vd, e, st.mono (by simp), c, h1, h2, ?_, ?_, by simp, v2⟩
    · intro h1 h2 p hp
      exact (v1 (h1.resolve_left (by simp)) h2 p hp).1
    · intro h1 h2 _ p hp
      exact (v1 h1 h2 p hp).2

/-- What `makeFrom` does. -/
structure Made (keep : Bool) (ty : Types V) (w w' : World V) (y : Nat) (o : Arr) (src : Shape) (off : Int)
    (s : Shape) (al : Nat) (a' : Arr) : Prop where
  inv : Inv ty w'
  step : Step (fun z => z = w.nextVar ∨ (keep = false ∧ z = y)) w w'
  next : w'.nextVar = w.nextVar + 1
  var : w'.vars w.nextVar = some a'
  source : w'.vars y = some o
  shape : a'.shape = s.resolve
  alloc : a'.alloc.arena = al
  full : NotHollow a'
  vals : Injective s.resolve → (keep = true ∨ InjectiveOn src s) →
    ∀ i, InBox s i → elem w' w.nextVar i = refElem w y src off i
  moved : Injective s.resolve → InjectiveOn src s → keep = false → ∀ i j, InBox s i → InBox o.shape j →
    offsetOf o.shape j = off + offsetOf src i → elem w' y j = (elem w y j).map ty.moved
  rest : ∀ j, InBox o.shape j → (∀ i, InBox s i → offsetOf o.shape j ≠ off + offsetOf src i) →
    elem w' y j = elem w y j

theorem makeFrom_ok (keep : Bool) {ty : Types V} {w : World V} {y : Nat} {o : Arr} {src : Shape} {off : Int}
    {s : Shape} (al : Nat) (hI : Inv ty w) (ho : w.vars y = some o) (hv : ViewOk ty o src off s) :
    ∃ w' a', makeFrom keep ty y src off s al w = .ok w' ∧ Made keep ty w w' y o src off s al a' := by
  obtain ⟨w1, a1, e1, hI1, hst1, hnv1, hv1, hsh1, hal1, hh1, hval1⟩ := newShapeAlloc_ok hI hv.shape al
  have hlt := hI.lt ho
  have hyn : y ≠ w.nextVar := by omega
  have ho1 : w1.vars y = some o := by rw [hst1.vars y hyn]; exact ho
  have hely : ∀ j, elem w1 y j = elem w y j := fun j => hst1.elem hI hyn j
  unfold makeFrom
  rw [get_ok ho, bind_ok]
  rw [e1, bind_ok, get_ok hv1, bind_ok]
  unfold assignElements
  have hempty := empty_iff_not_pos (hI1.good _ _ hv1).shape.nonNeg
  have hpos : Pos a1.shape ↔ Pos s := by rw [hsh1]; exact resolve_pos
  by_cases hp : Pos s
  swap
  · rw [if_pos (hempty.2 fun h => hp (hpos.1 h))]
    refine ⟨w1, a1, rfl, hI1, hst1.mono (fun z hz => Or.inl hz), hnv1, hv1, ho1, hsh1, hal1, hh1, ?_, ?_, ?_⟩
    · intro _ _ i hi; exact absurd (pos_of_inBox hi) hp
    · intro _ _ _ i j hi; exact absurd (pos_of_inBox hi) hp
    · intro j _ _; exact hely j
  · have hp1 := hpos.2 hp
    rw [if_neg fun h => hempty.1 h hp1]
    have hlen : List.length src = List.length a1.shape := by rw [hsh1, resolve_length]; exact hv.rank
    have hbox : ∀ i, InBox a1.shape i ↔ InBox s i := fun i => by rw [hsh1]; exact inBox_resolve s i
    rw [assert_ok (fun _ => (C16_assert_iff src a1.shape hlen hp1).2 fun i hi =>
      (hv.sub i ((hbox i).1 hi)).1), bind_ok]
    have hgn := hI1.good _ _ hv1
    have hg := hI1.good _ _ ho1
    have hb1 : a1.base ≠ none := fun h => hh1 h hp1
    have hob : o.base ≠ none := by
      have hm : InBox s (s.map Dim.min) := by
        have : ∀ {t : List Dim}, Pos t → InBox t (t.map Dim.min) := by
          intro t
          induction t with
          | nil => intro _; trivial
          | cons d ds ih =>
            intro h
            obtain ⟨h1, h2⟩ := pos_cons.1 h
            exact ⟨⟨le_rfl, by omega⟩, ih h2⟩
        exact this hp
      exact (hv.sub _ hm).2.1
    obtain ⟨b, blk, hh, hl⟩ := hg.full hob
    obtain ⟨c, nblk, hhn, hln⟩ := hgn.full hb1
    have hbc : b ≠ c := by
      rintro rfl
      exact hyn (hI1.disj y w.nextVar o a1 b 0 0 ho1 hv1 hh.buffer hhn.buffer)
    have hperm := copyForEachValue_perm' hlen hv.nonNeg (0 - o.shape.flatMin + off) (0 - a1.shape.flatMin)
    have hmem : ∀ p, p ∈ copyForEachValue src (some (0 - o.shape.flatMin + off)) a1.shape
        (some (0 - a1.shape.flatMin)) ↔ ∃ i, InBox s i ∧
          (0 - o.shape.flatMin + off + offsetOf src i, 0 - a1.shape.flatMin + offsetOf a1.shape i) = p := by
      intro p
      rw [hperm.mem_iff, List.mem_map]
      simp only [mem_boxList, hbox]
    generalize htr : copyForEachValue src (some (0 - o.shape.flatMin + off)) a1.shape
        (some (0 - a1.shape.flatMin)) = tr at hperm hmem
    obtain ⟨w', vs, vd, e, st, _, h1, h2, v1, v2, v3, v4⟩ := assign_loop keep ty hbc tr w1 blk nblk hh.heap hhn.heap
      (by
        intro p hp
        obtain ⟨i, hi, rfl⟩ := (hmem p).1 hp
        obtain ⟨_, _, j, hj, ej⟩ := hv.sub i hi
        have := elem_range hj
        rw [hh.size]; dsimp only; omega)
      (by
        intro p hp
        obtain ⟨i, hi, rfl⟩ := (hmem p).1 hp
        obtain ⟨_, _, j, hj, ej⟩ := hv.sub i hi
        rw [hl, cnt_pos_iff]; exact ⟨j, hj, by dsimp only; omega⟩)
      (by
        intro p hp
        obtain ⟨i, hi, rfl⟩ := (hmem p).1 hp
        rw [hhn.size]; exact elem_range ((hbox i).2 hi))
      (by
        intro p hp
        obtain ⟨i, hi, rfl⟩ := (hmem p).1 hp
        rw [hln, cnt_pos_iff]; exact ⟨i, (hbox i).2 hi, rfl⟩)
    have hvn : w'.vars w.nextVar = some a1 := by rw [st.vars]; exact hv1
    have hvo : w'.vars y = some o := by rw [st.vars]; exact ho1
    have hnd1 : InjectiveOn src s → (tr.map Prod.fst).Nodup := by
      intro hi
      rw [(hperm.map Prod.fst).nodup_iff, List.map_map]
      apply (boxList_nodup _).map_on
      intro i hi1 j hj1 e
      simp only [Function.comp] at e
      exact hi i j ((hbox i).1 (mem_boxList.1 hi1)) ((hbox j).1 (mem_boxList.1 hj1)) (by omega)
    have hnd2 : Injective s.resolve → (tr.map Prod.snd).Nodup := by
      intro hi
      rw [(hperm.map Prod.snd).nodup_iff, List.map_map]
      apply (boxList_nodup _).map_on
      intro i hi1 j hj1 e
      simp only [Function.comp] at e
      rw [← hsh1] at hi
      exact hi i j (mem_boxList.1 hi1) (mem_boxList.1 hj1) (by omega)
    have hle : ∀ j, InBox o.shape j → elem w y j = .ok (blk.val (0 - o.shape.flatMin + offsetOf o.shape j)) := by
      intro j hj
      rw [← hely, elem_holds ho1 hh.base hh.heap hh.size hl hj]
    have hinv : Inv ty w' := by
      apply hI1.of_skel st.vars st.nextVar st.nextBlock
      intro k
      by_cases hkb : k = b
      · subst hkb; rw [skel_some h1, skel_some hh.heap]
      · by_cases hkc : k = c
        · subst hkc; rw [skel_some h2, skel_some hhn.heap]
        · exact st.skel (by rintro (h | h); exact hkb h.2; exact hkc h)
    have hstep : Step (fun z => z = w.nextVar ∨ (keep = false ∧ z = y)) w1 w' := by
      refine ⟨fun z _ => by rw [st.vars], ?_⟩
      intro z a2 k hz ha2 hk
      rw [not_or] at hz
      apply st.heap
      rintro (⟨hkeep, rfl⟩ | rfl)
      · exact hz.2 ⟨hkeep, hI1.disj z y a2 o k 0 0 ha2 ho1 hk hh.buffer⟩
      · exact hz.1 (hI1.disj z w.nextVar a2 a1 k 0 0 ha2 hv1 hk hhn.buffer)
    refine ⟨w', a1, ?_, hinv, (hst1.mono fun z hz => Or.inl hz).trans hstep, by rw [st.nextVar, hnv1], hvn, hvo,
      hsh1, hal1, hh1, ?_, ?_, ?_⟩
    · unfold forEachPair
      rw [hh.base, hhn.base]
      simp only [Option.map_some, htr]
      exact e
    · intro hi1 hi2 i hi
      rw [elem_holds hvn hhn.base h2 hhn.size hln ((hbox i).2 hi)]
      have := v1 (hi2.imp id hnd1) (hnd2 hi1) _ ((hmem _).2 ⟨i, hi, rfl⟩)
      dsimp only at this ⊢
      rw [this]
      obtain ⟨_, _, j, hj, ej⟩ := hv.sub i hi
      have h3 := hle j hj
      unfold elem at h3
      unfold refElem
      rw [get_ok ho, bind_ok, hh.base] at h3 ⊢
      dsimp only at h3 ⊢
      rw [flatOffset_eq] at h3 ⊢
      have e3 : 0 - o.shape.flatMin + off + offsetOf src i = 0 - o.shape.flatMin + offsetOf o.shape j := by omega
      rw [e3, h3]
    · intro hi1 hi2 hk i j hi hj ej
      rw [elem_holds hvo hh.base h1 hh.size hl hj, hle j hj]
      have := v2 (hnd1 hi2) (hnd2 hi1) hk _ ((hmem _).2 ⟨i, hi, rfl⟩)
      dsimp only at this ⊢
      have e3 : 0 - o.shape.flatMin + offsetOf o.shape j = 0 - o.shape.flatMin + off + offsetOf src i := by omega
      rw [e3, this]; rfl
    · intro j hj hno
      rw [elem_holds hvo hh.base h1 hh.size hl hj, hle j hj]
      dsimp only
      rw [v4]
      intro hm
      obtain ⟨p, hp, e⟩ := List.mem_map.1 hm
      obtain ⟨i, hi, rfl⟩ := (hmem p).1 hp
      dsimp only at e
      exact hno i hi (by omega)

theorem makeFromArray_eq {keep : Bool} {ty : Types V} {w : World V} {y : Nat} {o : Arr} (ho : w.vars y = some o)
    (s : Shape) (al : Nat) : makeFromArray keep ty y s al w = makeFrom keep ty y o.shape 0 s al w := by
  unfold makeFromArray
  rw [get_ok ho, bind_ok]

end Nda
