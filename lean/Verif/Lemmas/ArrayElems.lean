import Verif.Model.Array
import Verif.Lemmas.Values
import Verif.Lemmas.Algorithms
/-
Loops over elements of blocks.
-/
namespace Nda
open Spec

variable {V : Type}

/-- Blocks other than those in `B`, and everything else, are the same. -/
structure SameBut (B : Nat → Prop) (w w' : World V) : Prop where
  vars : w'.vars = w.vars
  nextVar : w'.nextVar = w.nextVar
  nextBlock : w'.nextBlock = w.nextBlock
  heap : ∀ c, ¬ B c → w'.heap c = w.heap c

theorem SameBut.refl (B : Nat → Prop) (w : World V) : SameBut B w w := ⟨rfl, rfl, rfl, fun _ _ => rfl⟩

theorem SameBut.trans {B : Nat → Prop} {w w' w'' : World V} (h : SameBut B w w')
    (h' : SameBut B w' w'') : SameBut B w w'' :=
  ⟨h'.vars.trans h.vars, h'.nextVar.trans h.nextVar, h'.nextBlock.trans h.nextBlock,
    fun c hc => (h'.heap c hc).trans (h.heap c hc)⟩

theorem SameBut.mono {B C : Nat → Prop} {w w' : World V} (h : SameBut B w w')
    (hBC : ∀ c, B c → C c) : SameBut C w w' :=
  ⟨h.vars, h.nextVar, h.nextBlock, fun c hc => h.heap c fun hb => hc (hBC c hb)⟩

theorem setBlock_heap (w : World V) (b : Nat) (x : Option (Block V)) (c : Nat) :
    (w.setBlock b x).heap c = if c = b then x else w.heap c := rfl

theorem block_ok {w : World V} {b : Nat} {blk : Block V} (h : w.heap b = some blk) {o : Int}
    (h1 : 0 ≤ o) (h2 : o < blk.size) : w.block b o = .ok blk := by
  unfold World.block; rw [h]; simp [h1, h2]

theorem constructAt_ok {w : World V} {b : Nat} {blk : Block V} (h : w.heap b = some blk) {o : Int}
    (h1 : 0 ≤ o) (h2 : o < blk.size) (k : Call) (v : V) :
    ∃ w', constructAt k b o v w = .ok w' ∧ SameBut (· = b) w w' ∧ w'.calls = w.calls ++ [k] ∧
      w'.heap b = some { blk with
        live := fun p => if p = o then blk.live o + 1 else blk.live p
        val := fun p => if p = o then v else blk.val p } := by
  unfold constructAt
  rw [block_ok h h1 h2]
  refine ⟨_, rfl, ⟨rfl, rfl, rfl, ?_⟩, rfl, ?_⟩
  · intro c hc; simp [setBlock_heap, hc]
  · simp [setBlock_heap]

theorem destroyAt_ok {w : World V} {b : Nat} {blk : Block V} (h : w.heap b = some blk) {o : Int}
    (h1 : 0 ≤ o) (h2 : o < blk.size) (h3 : 0 < blk.live o) :
    ∃ w', destroyAt b o w = .ok w' ∧ SameBut (· = b) w w' ∧ w'.calls = w.calls ++ [.destroy] ∧
      w'.heap b = some { blk with
        live := fun p => if p = o then blk.live o - 1 else blk.live p } := by
  unfold destroyAt
  rw [block_ok h h1 h2]
  show ∃ w', (if blk.live o = 0 then _ else _) = _ ∧ _
  rw [if_neg (by omega)]
  refine ⟨_, rfl, ⟨rfl, rfl, rfl, ?_⟩, rfl, ?_⟩
  · intro c hc; simp [setBlock_heap, hc]
  · simp [setBlock_heap]

theorem assignAt_ok {w : World V} {b : Nat} {blk : Block V} (h : w.heap b = some blk) {o : Int}
    (h1 : 0 ≤ o) (h2 : o < blk.size) (h3 : 0 < blk.live o) (k : Call) (v : V) :
    ∃ w', assignAt k b o v w = .ok w' ∧ SameBut (· = b) w w' ∧ w'.calls = w.calls ++ [k] ∧
      w'.heap b = some { blk with val := fun p => if p = o then v else blk.val p } := by
  unfold assignAt
  rw [block_ok h h1 h2]
  show ∃ w', (if blk.live o = 0 then _ else _) = _ ∧ _
  rw [if_neg (by omega)]
  refine ⟨_, rfl, ⟨rfl, rfl, rfl, ?_⟩, rfl, ?_⟩
  · intro c hc; simp [setBlock_heap, hc]
  · simp [setBlock_heap]

theorem movedFromAt_ok {w : World V} {b : Nat} {blk : Block V} (h : w.heap b = some blk) {o : Int}
    (h1 : 0 ≤ o) (h2 : o < blk.size) (ty : Types V) :
    ∃ w', movedFromAt ty b o w = .ok w' ∧ SameBut (· = b) w w' ∧ w'.calls = w.calls ∧
      w'.heap b = some { blk with
        val := fun p => if p = o then ty.moved (blk.val o) else blk.val p } := by
  unfold movedFromAt
  rw [block_ok h h1 h2]
  refine ⟨_, rfl, ⟨rfl, rfl, rfl, ?_⟩, rfl, ?_⟩
  · intro c hc; simp [setBlock_heap, hc]
  · simp [setBlock_heap]

theorem readAt_ok {w : World V} {b : Nat} {blk : Block V} (h : w.heap b = some blk) {o : Int}
    (h1 : 0 ≤ o) (h2 : o < blk.size) (h3 : 0 < blk.live o) : readAt w b o = .ok (blk.val o) := by
  unfold readAt
  rw [block_ok h h1 h2]
  show (if blk.live o = 0 then _ else _) = _
  rw [if_neg (by omega)]

/-- The loop of `construct`. -/
theorem construct_loop (b : Nat) (k : Call) (v : V) (tr : List Int) (w : World V) (blk : Block V)
    (h : w.heap b = some blk) (hr : ∀ o ∈ tr, 0 ≤ o ∧ o < blk.size) :
    ∃ w', tr.foldlM (fun w p => constructAt k b p v w) w = .ok w' ∧ SameBut (· = b) w w' ∧
      w'.calls = w.calls ++ List.replicate tr.length k ∧
      w'.heap b = some { blk with
        live := fun p => blk.live p + tr.count p
        val := fun p => if p ∈ tr then v else blk.val p } := by
  induction tr generalizing w blk with
  | nil => exact ⟨w, rfl, SameBut.refl _ _, by simp, by simpa using h⟩
  | cons o tr ih =>
    obtain ⟨w1, e1, s1, c1, h1⟩ := constructAt_ok h (hr o (by simp)).1 (hr o (by simp)).2 k v
    obtain ⟨w2, e2, s2, c2, h2⟩ := ih w1 _ h1 (fun p hp => hr p (by simp [hp]))
    refine ⟨w2, ?_, s1.trans s2, by rw [c2, c1]; simp [List.replicate_succ], ?_⟩
    · rw [List.foldlM_cons, e1]; exact e2
    · rw [h2]
      congr 1
      simp only [Block.mk.injEq, true_and]
      constructor
      · funext p
        by_cases hp : p = o
        · subst hp; simp; omega
        · simp [hp, Ne.symm hp]
      · funext p
        by_cases hp : p = o
        · subst hp; simp
        · simp [hp]

/-- The loop of `destroy`. -/
theorem destroy_loop (b : Nat) (tr : List Int) (w : World V) (blk : Block V)
    (h : w.heap b = some blk) (hr : ∀ o ∈ tr, 0 ≤ o ∧ o < blk.size)
    (hl : ∀ o, tr.count o ≤ blk.live o) :
    ∃ w', tr.foldlM (fun w p => destroyAt b p w) w = .ok w' ∧ SameBut (· = b) w w' ∧
      w'.calls = w.calls ++ List.replicate tr.length .destroy ∧
      w'.heap b = some { blk with live := fun p => blk.live p - tr.count p } := by
  induction tr generalizing w blk with
  | nil => exact ⟨w, rfl, SameBut.refl _ _, by simp, by simpa using h⟩
  | cons o tr ih =>
    have ho := hl o
    rw [List.count_cons_self] at ho
    obtain ⟨w1, e1, s1, c1, h1⟩ := destroyAt_ok h (hr o (by simp)).1 (hr o (by simp)).2 (by omega)
    obtain ⟨w2, e2, s2, c2, h2⟩ := ih w1 _ h1 (fun p hp => hr p (by simp [hp])) (by
      intro p
      have := hl p
      by_cases hp : p = o
      · subst hp; simp at this ⊢; omega
      · simpa [hp, Ne.symm hp] using this)
    refine ⟨w2, ?_, s1.trans s2, by rw [c2, c1]; simp [List.replicate_succ], ?_⟩
    · rw [List.foldlM_cons, e1]; exact e2
    · rw [h2]
      congr 1
      simp only [Block.mk.injEq, true_and, and_true]
      funext p
      by_cases hp : p = o
      · subst hp; simp; omega
      · simp [hp, Ne.symm hp]

theorem sameBut_two {b c : Nat} {w w' : World V} (h : SameBut (· = b) w w') :
    SameBut (fun x => x = b ∨ x = c) w w' := h.mono fun _ => Or.inl

theorem sameBut_two' {b c : Nat} {w w' : World V} (h : SameBut (· = c) w w') :
    SameBut (fun x => x = b ∨ x = c) w w' := h.mono fun _ => Or.inr

/-- The loop of `copy_construct` from another block. -/
theorem copyConstruct_loop {bs bd : Nat} (hne : bs ≠ bd) (tr : List (Int × Int)) (w : World V)
    (sb db : Block V) (hs : w.heap bs = some sb) (hd : w.heap bd = some db)
    (hrs : ∀ p ∈ tr, 0 ≤ p.1 ∧ p.1 < sb.size) (hls : ∀ p ∈ tr, 0 < sb.live p.1)
    (hrd : ∀ p ∈ tr, 0 ≤ p.2 ∧ p.2 < db.size) :
    ∃ w' val, tr.foldlM (fun w p => copyConstructAt bs bd p w) w = .ok w' ∧
      SameBut (· = bd) w w' ∧ w'.calls = w.calls ++ List.replicate tr.length .copyConstruct ∧
      w'.heap bd = some { db with live := fun p => db.live p + (tr.map Prod.snd).count p, val := val } ∧
      (∀ o, o ∈ tr.map Prod.snd → ∃ p ∈ tr, p.2 = o ∧ val o = sb.val p.1) ∧
      (∀ o, o ∉ tr.map Prod.snd → val o = db.val o) := by
  induction tr generalizing w db with
  | nil => exact ⟨w, db.val, rfl, SameBut.refl _ _, by simp, by simpa using hd, by simp, by simp⟩
  | cons q tr ih =>
    have hq := hrs q (by simp)
    have hq2 := hrd q (by simp)
    obtain ⟨w1, e1, s1, c1, h1⟩ := constructAt_ok hd hq2.1 hq2.2 .copyConstruct (sb.val q.1)
    obtain ⟨w2, val, e2, s2, c2, h2, v2, u2⟩ := ih w1 _ (by rw [s1.heap _ hne, hs]) h1
      (fun p hp => hrs p (by simp [hp])) (fun p hp => hls p (by simp [hp]))
      (fun p hp => hrd p (by simp [hp]))
    refine ⟨w2, val, ?_, s1.trans s2, by rw [c2, c1]; simp [List.replicate_succ], ?_, ?_, ?_⟩
    · rw [List.foldlM_cons]
      have : copyConstructAt bs bd q w = .ok w1 := by
        unfold copyConstructAt
        rw [readAt_ok hs hq.1 hq.2 (hls q (by simp))]
        exact e1
      rw [this]; exact e2
    · rw [h2]
      congr 1
      simp only [Block.mk.injEq, true_and, and_true]
      funext p
      by_cases hp : p = q.2
      · subst hp; simp; omega
      · simp [hp, Ne.symm hp]
    · intro o ho
      by_cases hot : o ∈ tr.map Prod.snd
      · obtain ⟨p, hp, h3, h4⟩ := v2 o hot
        exact ⟨p, by simp [hp], h3, h4⟩
      · have : o = q.2 := by
          rw [List.map_cons, List.mem_cons] at ho; tauto
        refine ⟨q, by simp, this.symm, ?_⟩
        rw [u2 o hot, this]; simp
    · intro o ho
      rw [List.map_cons, List.mem_cons, not_or] at ho
      rw [u2 o ho.2]; simp [ho.1]

/-- A loop that moves each element out of block `bs`, and then constructs or assigns an element of
block `bd` (`k = 1` or `0` new constructor calls). -/
theorem move_loop (ty : Types V) {bs bd : Nat} (hne : bs ≠ bd) (c : Call) (k : Nat)
    (f : Int → V → World V → Except Fault (World V)) (sb : Block V) (source : Source) (size : Nat)
    (ok : Int → (Int → Nat) → Prop)
    (hf : ∀ (o : Int) (v : V) (w : World V) (blk : Block V), w.heap bd = some blk → blk.size = size →
      0 ≤ o → o < blk.size → ok o blk.live →
      ∃ w', f o v w = .ok w' ∧ SameBut (· = bd) w w' ∧ w'.calls = w.calls ++ [c] ∧
        w'.heap bd = some { blk with
          live := fun p => if p = o then blk.live o + k else blk.live p
          val := fun p => if p = o then v else blk.val p })
    (hok : ∀ o l p, ok o l → ok o fun x => if x = p then l p + k else l x)
    (tr : List (Int × Int)) (w : World V)
    (db : Block V) (hs : w.heap bs = some sb) (hd : w.heap bd = some db) (hsz : db.size = size)
    (har : db.source = source)
    (hrs : ∀ p ∈ tr, 0 ≤ p.1 ∧ p.1 < sb.size) (hls : ∀ p ∈ tr, 0 < sb.live p.1)
    (hrd : ∀ p ∈ tr, 0 ≤ p.2 ∧ p.2 < db.size) (hld : ∀ p ∈ tr, ok p.2 db.live) :
    ∃ w' vs vd, tr.foldlM (fun w p => do
        let v ← readAt w bs p.1
        let w ← movedFromAt ty bs p.1 w
        f p.2 v w) w = .ok w' ∧
      SameBut (fun c => c = bs ∨ c = bd) w w' ∧ w'.calls = w.calls ++ List.replicate tr.length c ∧
      w'.heap bs = some { sb with val := vs } ∧
      w'.heap bd = some { db with live := fun p => db.live p + k * (tr.map Prod.snd).count p, val := vd } ∧
      ((tr.map Prod.fst).Nodup → (tr.map Prod.snd).Nodup →
        (∀ p ∈ tr, vd p.2 = sb.val p.1 ∧ vs p.1 = ty.moved (sb.val p.1))) ∧
      (∀ o, o ∉ tr.map Prod.fst → vs o = sb.val o) ∧
      (∀ o, o ∉ tr.map Prod.snd → vd o = db.val o) := by
  induction tr generalizing w sb db with
  | nil =>
    exact ⟨w, sb.val, db.val, rfl, SameBut.refl _ _, by simp, by simpa using hs, by simpa using hd,
      by simp, by simp, by simp⟩
  | cons q tr ih =>
    have hq := hrs q (by simp)
    have hq2 := hrd q (by simp)
    obtain ⟨w0, e0, s0, c0, h0⟩ := movedFromAt_ok hs hq.1 hq.2 ty
    obtain ⟨w1, e1, s1, c1, h1⟩ := hf q.2 (sb.val q.1) w0 db (by rw [s0.heap _ (Ne.symm hne), hd]) hsz
      hq2.1 hq2.2 (hld q (by simp))
    obtain ⟨w2, vs, vd, e2, s2, c2, g1, g2, v2, u1, u2⟩ := ih
      { sb with val := fun p => if p = q.1 then ty.moved (sb.val q.1) else sb.val p } w1
      { db with
        live := fun p => if p = q.2 then db.live q.2 + k else db.live p
        val := fun p => if p = q.2 then sb.val q.1 else db.val p }
      (by rw [s1.heap _ hne, h0]) h1 hsz har
      (fun p hp => hrs p (by simp [hp])) (fun p hp => hls p (by simp [hp]))
      (fun p hp => hrd p (by simp [hp])) (fun p hp => hok _ _ _ (hld p (by simp [hp])))
    refine ⟨w2, vs, vd, ?_, (sameBut_two s0).trans ((sameBut_two' s1).trans s2),
      by rw [c2, c1, c0]; simp [List.replicate_succ], g1, ?_, ?_, ?_, ?_⟩
    · rw [List.foldlM_cons, readAt_ok hs hq.1 hq.2 (hls q (by simp))]
      show (movedFromAt ty bs q.1 w >>= fun w => f q.2 (sb.val q.1) w) >>= _ = _
      rw [e0]
      show f q.2 (sb.val q.1) w0 >>= _ = _
      rw [e1]; exact e2
    · rw [g2]
      congr 1
      simp only [Block.mk.injEq, true_and, and_true]
      funext p
      by_cases hp : p = q.2
      · subst hp; simp; ring
      · simp [hp, Ne.symm hp]
    · intro n1 n2 p hp
      rw [List.map_cons, List.nodup_cons] at n1 n2
      rcases List.mem_cons.1 hp with rfl | hp
      · rw [u1 _ n1.1, u2 _ n2.1]; simp
      · have e1 : p.1 ≠ q.1 := fun e => n1.1 (e ▸ List.mem_map_of_mem hp)
        have := v2 n1.2 n2.2 p hp
        simpa [e1] using this
    · intro o ho
      rw [List.map_cons, List.mem_cons, not_or] at ho
      rw [u1 o ho.2]; simp [ho.1]
    · intro o ho
      rw [List.map_cons, List.mem_cons, not_or] at ho
      rw [u2 o ho.2]; simp [ho.1]

/-- The loop of `move_construct` from another block. -/
theorem moveConstruct_loop (ty : Types V) {bs bd : Nat} (hne : bs ≠ bd) (tr : List (Int × Int))
    (w : World V) (sb db : Block V) (hs : w.heap bs = some sb) (hd : w.heap bd = some db)
    (hrs : ∀ p ∈ tr, 0 ≤ p.1 ∧ p.1 < sb.size) (hls : ∀ p ∈ tr, 0 < sb.live p.1)
    (hrd : ∀ p ∈ tr, 0 ≤ p.2 ∧ p.2 < db.size) :
    ∃ w' vs vd, tr.foldlM (fun w p => moveConstructAt ty bs bd p w) w = .ok w' ∧
      SameBut (fun c => c = bs ∨ c = bd) w w' ∧ w'.calls = w.calls ++ List.replicate tr.length .moveConstruct ∧
      w'.heap bs = some { sb with val := vs } ∧
      w'.heap bd = some { db with live := fun p => db.live p + (tr.map Prod.snd).count p, val := vd } ∧
      ((tr.map Prod.fst).Nodup → (tr.map Prod.snd).Nodup →
        (∀ p ∈ tr, vd p.2 = sb.val p.1 ∧ vs p.1 = ty.moved (sb.val p.1))) ∧
      (∀ o, o ∉ tr.map Prod.fst → vs o = sb.val o) ∧
      (∀ o, o ∉ tr.map Prod.snd → vd o = db.val o) := by
  have := move_loop ty hne .moveConstruct 1 (fun o v w => constructAt .moveConstruct bd o v w) sb db.source db.size (fun _ _ => True)
    (fun o v w blk h _ h1 h2 _ => constructAt_ok h h1 h2 _ v) (by simp) tr w db hs hd rfl rfl hrs hls hrd
    (by simp)
  simp only [one_mul] at this
  exact this

/-- The loop of `move_assign` from another block. -/
theorem moveAssign_loop (ty : Types V) {bs bd : Nat} (hne : bs ≠ bd) (tr : List (Int × Int))
    (w : World V) (sb db : Block V) (hs : w.heap bs = some sb) (hd : w.heap bd = some db)
    (hrs : ∀ p ∈ tr, 0 ≤ p.1 ∧ p.1 < sb.size) (hls : ∀ p ∈ tr, 0 < sb.live p.1)
    (hrd : ∀ p ∈ tr, 0 ≤ p.2 ∧ p.2 < db.size) (hld : ∀ p ∈ tr, 0 < db.live p.2) :
    ∃ w' vs vd, tr.foldlM (fun w p => moveAssignAt ty bs bd p w) w = .ok w' ∧
      SameBut (fun c => c = bs ∨ c = bd) w w' ∧ w'.calls = w.calls ++ List.replicate tr.length .moveAssign ∧
      w'.heap bs = some { sb with val := vs } ∧
      w'.heap bd = some { db with val := vd } ∧
      ((tr.map Prod.fst).Nodup → (tr.map Prod.snd).Nodup →
        (∀ p ∈ tr, vd p.2 = sb.val p.1 ∧ vs p.1 = ty.moved (sb.val p.1))) ∧
      (∀ o, o ∉ tr.map Prod.fst → vs o = sb.val o) ∧
      (∀ o, o ∉ tr.map Prod.snd → vd o = db.val o) := by
  have := move_loop ty hne .moveAssign 0 (fun o v w => assignAt .moveAssign bd o v w) sb db.source db.size (fun o l => 0 < l o)
    (fun o v w blk h _ h1 h2 h3 => by
      obtain ⟨w', e, s, c, g⟩ := assignAt_ok h h1 h2 h3 .moveAssign v
      refine ⟨w', e, s, c, ?_⟩
      rw [g]
      congr 1
      simp only [Block.mk.injEq, true_and, and_true]
      funext p
      split
      · rename_i hp; rw [hp]; rfl
      · rfl)
    (by intro o l p h; by_cases hp : o = p <;> simp_all) tr w db hs hd rfl rfl hrs hls hrd hld
  simp only [zero_mul, add_zero] at this
  exact this

end Nda
