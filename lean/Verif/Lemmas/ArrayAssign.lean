import Verif.Lemmas.ArrayOps
/-
The effect of constructors, destructor and assignments of `array`.
-/
namespace Nda
open Spec

variable {V : Type} [Hollow V]

theorem SameBut.skel {P : Nat → Prop} {w w' : World V} (h : SameBut P w w') {c : Nat} (hc : ¬ P c) :
    w'.skel c = w.skel c := by unfold World.skel; rw [h.heap c hc]

theorem Inv.lt {ty : Types V} {w : World V} (hI : Inv ty w) {x : Nat} {a : Arr} (ha : w.vars x = some a) :
    x < w.nextVar := by
  by_contra h
  rw [hI.freshVar x (by omega)] at ha
  simp at ha

/-- An object without memory is good if its shape is. -/
theorem InvBut.close {ty : Types V} {w : World V} {x : Nat} {a : Arr} (hI : InvBut ty w x)
    (ha : w.vars x = some a) (hse : a.alloc.self = x) (hx : x < w.nextVar) (hn : IsNull a) (hs : ShapeOk ty a.shape)
    (hd : Bare ty a.shape) : Inv ty w := by
  apply hI.finish (w' := w) (fun _ _ => rfl) (fun _ _ h => h) (fun _ => hx) le_rfl (fun _ _ => rfl)
  · intro a' ha'
    rw [ha] at ha'
    simp only [Option.some.injEq] at ha'
    subst ha'
    exact ⟨hs, Or.inl ⟨hn, hd⟩, fun h => absurd hn.buffer h⟩
  · intro a' ha'
    rw [ha] at ha'
    simp only [Option.some.injEq] at ha'
    subst ha'
    exact hse
  · intro a' c o ha' hc
    rw [ha] at ha'
    simp only [Option.some.injEq] at ha'
    subst ha'
    rw [hn.buffer] at hc; simp at hc
  · intro c hc
    exact Or.inl hc

/-- Only `x` itself changes. -/
theorem InvBut.of_vars {ty : Types V} {w w' : World V} {x : Nat} (hI : InvBut ty w x)
    (hv : ∀ y, y ≠ x → w'.vars y = w.vars y) (hh : w'.heap = w.heap) (hnb : w'.nextBlock = w.nextBlock)
    (hnv : ∀ y, y ≠ x → w'.nextVar ≤ y → w.nextVar ≤ y) : InvBut ty w' x := by
  refine ⟨?_, ?_, ?_, ?_, ?_, fun y a hy ha => hI.self y a hy (by rw [← hv y hy]; exact ha)⟩
  · intro y a hy ha
    rw [hv y hy] at ha
    exact (hI.good y a hy ha).mono fun b _ => by unfold World.skel; rw [hh]
  · intro y z a a' b o o' hy hz h1 h2
    rw [hv y hy] at h1; rw [hv z hz] at h2
    exact hI.disj y z a a' b o o' hy hz h1 h2
  · intro b hb
    rw [hh] at hb
    obtain ⟨y, a, hy, h1, h2⟩ := hI.cover b hb
    exact ⟨y, a, hy, by rw [hv y hy]; exact h1, h2⟩
  · intro b hb
    rw [hh]; exact hI.fresh b (by omega)
  · intro y hy hn
    rw [hv y hy]; exact hI.freshVar y hy (hnv y hy hn)

/-- A new object without memory. -/
theorem Inv.push {ty : Types V} {w : World V} (hI : Inv ty w) (a : Arr) :
    InvBut ty (w.push a) w.nextVar := by
  have h0 : InvBut ty w w.nextVar := hI.but_new (by
    intro a ha; rw [hI.freshVar _ le_rfl] at ha; simp at ha)
  refine h0.of_vars ?_ rfl rfl ?_
  · intro y hy
    simp [World.push, setVar_vars, hy]
  · intro y hy h
    simp only [World.push] at h
    omega

theorem push_vars (w : World V) (a : Arr) (y : Nat) :
    (w.push a).vars y = if y = w.nextVar then some a else w.vars y := rfl

theorem Inv.step_push {ty : Types V} {w : World V} (hI : Inv ty w) (a : Arr) :
    Step (· = w.nextVar) w (w.push a) :=
  ⟨fun y hy => by rw [push_vars, if_neg hy], fun _ _ _ _ _ _ => rfl⟩

/-- `deallocate`. -/
theorem deallocate_ok (ty : Types V) {w : World V} {x : Nat} {a : Arr} (hI : Inv ty w)
    (ha : w.vars x = some a) :
    ∃ w' a', deallocate ty x w = .ok w' ∧ InvBut ty w' x ∧
      (∀ y, w'.vars y = if y = x then some a' else w.vars y) ∧ IsNull a' ∧ a'.alloc = a.alloc.idle ∧
      ((a.base = none ∧ a' = a) ∨ a'.shape = ty.defaultShape) ∧ w'.nextVar = w.nextVar ∧
      Step (· = x) w w' := by
  rcases (hI.good x a ha).own with ⟨hn, _⟩ | ⟨b, blk, hh, hl⟩
  · refine ⟨w, a, deallocate_null ty ha hn.base, hI.but_new ?_, ?_, hn, (Allocator.idle_of hn.idle).symm,
      Or.inl ⟨hn.base, rfl⟩, rfl,
      Step.refl _ _⟩
    · intro a' ha'
      rw [ha] at ha'
      simp only [Option.some.injEq] at ha'
      subst ha'; exact hn.buffer
    · intro y
      split
      · rename_i h; rw [h, ha]
      · rfl
  · obtain ⟨k, e⟩ := deallocate_holds ty ha hh (hI.good x a ha).shape.nonNeg hl
    refine ⟨_, _, e, ?_, fun y => rfl, ⟨rfl, rfl, rfl⟩, rfl, Or.inr rfl, rfl, ?_⟩
    · exact (hI.but_block ha hh).of_vars (fun y hy => by rw [setVar_vars, if_neg hy]; rfl) rfl rfl
        (fun y _ h => h)
    · refine ⟨fun y hy => by rw [setVar_vars, if_neg hy]; rfl, ?_⟩
      intro y a2 c hy ha2 hc
      rw [setVar_heap, setBlock_heap, if_neg]
      rintro rfl
      exact hy (hI.disj y x a2 a c 0 0 ha2 ha hc hh.buffer)

/-- `~array()`. -/
theorem delete_ok {ty : Types V} {w : World V} {x : Nat} {a : Arr} (hI : Inv ty w)
    (ha : w.vars x = some a) :
    ∃ w', delete ty x w = .ok w' ∧ Inv ty w' ∧ Step (· = x) w w' ∧ w'.vars x = none ∧
      w'.nextVar = w.nextVar := by
  obtain ⟨w1, a1, e1, hI1, hv, _, _, _, hnv, hst⟩ := deallocate_ok ty hI ha
  refine ⟨w1.setVar x none, ?_, ?_, ?_, setVar_self _ _ _, hnv⟩
  · unfold delete; rw [e1, bind_ok]
  · apply hI1.finish
    · intro y hy; rw [setVar_vars, if_neg hy]
    · intro y _ h; exact h
    · intro h; simp at h
    · exact le_rfl
    · intro c _; rfl
    · intro a' h; simp at h
    · intro a' h; simp at h
    · intro a' c o h; simp at h
    · intro c hc; exact Or.inl hc
  · refine ⟨fun y hy => by rw [setVar_vars, if_neg hy, hst.vars y hy], fun y a' c hy h1 h2 => ?_⟩
    rw [setVar_heap]; exact hst.heap y a' c hy h1 h2

/-- The two constructors taking a shape. -/
theorem newShapeAlloc_ok {ty : Types V} {w : World V} (hI : Inv ty w) {s : Shape} (hs : ShapeOk ty s)
    (al : Nat) :
    ∃ w' a', newShapeAlloc ty s al w = .ok w' ∧ Inv ty w' ∧ Step (· = w.nextVar) w w' ∧
      w'.nextVar = w.nextVar + 1 ∧ w'.vars w.nextVar = some a' ∧ a'.shape = s.resolve ∧
      a'.alloc.arena = al ∧
      (a'.base = none → ¬ Pos a'.shape) ∧
      ∀ i, InBox a'.shape i → elem w' w.nextVar i = .ok ty.defaultValue := by
  obtain ⟨w', a', e, h1, h2, h3, h4, h5, h6, h7, h8⟩ := build_fill (a := ⟨⟨al, w.nextVar, false⟩, none, 0, none, s⟩)
    (hI.push ⟨⟨al, w.nextVar, false⟩, none, 0, none, s⟩) (by simp [push_vars]) rfl rfl rfl hs (Nat.lt_succ_self _) .defaultConstruct ty.defaultValue
  exact ⟨w', a', e, h1, (hI.step_push _).trans h2, h3, h4, h5, Allocator.idle_arena h6, h7, h8⟩

/-- `assign(shape, value)`. -/
theorem assignFill_ok {ty : Types V} {w : World V} {x : Nat} {a : Arr} (hI : Inv ty w)
    (ha : w.vars x = some a) (hh : NotHollow a) {s : Shape} (hs : ShapeOk ty s) (v : V) :
    ∃ w' a', assignFill ty x s v w = .ok w' ∧ Inv ty w' ∧ Step (· = x) w w' ∧
      w'.nextVar = w.nextVar ∧ w'.vars x = some a' ∧ a'.shape = s.resolve ∧
      a'.alloc.idle = a.alloc.idle ∧
      NotHollow a' ∧ ∀ i, InBox a'.shape i → elem w' x i = .ok v := by
  unfold assignFill
  rw [get_ok ha, bind_ok]
  dsimp only
  have hg := hI.good x a ha
  by_cases hss : a.shape = s.resolve
  · rw [if_pos hss]
    rcases hg.own with ⟨hn, _⟩ | ⟨b, blk, hhd, hl⟩
    · have hp := hh hn.base
      have he := (empty_iff_not_pos hg.shape.nonNeg).2 hp
      rw [destroy_null ty ha hn.base (fun _ => he), bind_ok]
      refine ⟨w, a, construct_null ty ha hn.base (fun _ => he) .copyConstruct v, hI, Step.refl _ _, rfl, ha, hss, rfl, hh, ?_⟩
      intro i hi; exact absurd (pos_of_inBox hi) hp
    · obtain ⟨w1, e1, s1, hb1⟩ := destroy_holds ty ha hhd hg.shape.nonNeg hl
      rw [e1, bind_ok]
      have ha1 : w1.vars x = some a := by rw [s1.vars]; exact ha
      have hh1 : Holds w1 a b { blk with live := fun _ => 0 } :=
        ⟨hhd.buffer, hhd.base, hb1, hhd.arena, hhd.size, hhd.bufferSize, hhd.known⟩
      obtain ⟨w2, val, e2, s2, hb2, hv⟩ := construct_holds ty ha1 hh1 hg.shape.nonNeg rfl .copyConstruct v
      refine ⟨w2, a, e2, ?_, ?_, by rw [s2.nextVar, s1.nextVar], by rw [s2.vars]; exact ha1, hss, rfl, hh, ?_⟩
      · apply hI.of_skel (by rw [s2.vars, s1.vars]) (by rw [s2.nextVar, s1.nextVar])
          (by rw [s2.nextBlock, s1.nextBlock])
        intro c
        by_cases hc : c = b
        · subst hc
          rw [skel_some hb2, skel_some hhd.heap, hl]
        · rw [s2.skel hc, s1.skel hc]
      · refine ⟨fun y _ => by rw [s2.vars, s1.vars], ?_⟩
        intro y a2 c hy ha2 hc
        have : c ≠ b := by
          rintro rfl
          exact hy (hI.disj y x a2 a c 0 0 ha2 ha hc hhd.buffer)
        rw [s2.heap c this, s1.heap c this]
      · intro i hi
        rw [elem_holds (by rw [s2.vars]; exact ha1) hhd.base hb2 hhd.size rfl hi]
        dsimp only
        rw [hv i hi]
  · rw [if_neg hss]
    obtain ⟨w1, a1, e1, hI1, hv1, hn1, hal1, _, hnv1, hst1⟩ := deallocate_ok ty hI ha
    have ha1 : w1.vars x = some a1 := by rw [hv1]; simp
    rw [e1, bind_ok]
    have e2 : setShapeMember x s.resolve w1 = .ok (w1.setVar x (some { a1 with shape := s.resolve })) := by
      unfold setShapeMember; rw [get_ok ha1, bind_ok]
    rw [e2, bind_ok]
    have hx := hI.lt ha
    obtain ⟨w', a', e, h1, h2, h3, h4, h5, h6, h7, h8⟩ := build_fill
      (w := w1.setVar x (some { a1 with shape := s.resolve })) (x := x)
      (hI1.of_vars (fun y hy => by rw [setVar_vars, if_neg hy]) rfl rfl (fun _ _ h => h))
      (setVar_self _ _ _) hn1.buffer hn1.idle (by dsimp only; rw [hal1]; exact hI.self x a ha) hs.resolve (by show x < w1.nextVar; omega) .copyConstruct v
    refine ⟨w', a', e, h1, hst1.trans (Step.trans ?_ h2), by rw [h3]; exact hnv1, h4, ?_,
      by rw [h6]; dsimp only; rw [hal1]; rfl, h7, h8⟩
    · exact ⟨fun y hy => by rw [setVar_vars, if_neg hy], fun _ _ _ _ _ _ => rfl⟩
    · rw [h5]; exact resolve_of_known (resolve_known s)

/-! ### `assign(array)` -/

/-- `assignCopy` and `assignMove` in one definition. -/
def assignArr (keep : Bool) (ty : Types V) (this other : Nat) (w : World V) : Except Fault (World V) :=
  if keep then assignCopy ty this other w else assignMove ty this other w

theorem Good.base_block {ty : Types V} {w : World V} {a : Arr} (h : Good ty w a) {b : Nat} {o : Int}
    (hb : a.base = some (b, o)) : a.buffer = some (b, 0) := by
  rcases h.own with ⟨ho, _⟩ | ⟨b', blk, hh, _⟩
  · rw [ho.base] at hb; simp at hb
  · rw [hh.base] at hb
    simp only [Option.some.injEq, Prod.mk.injEq] at hb
    rw [hh.buffer, hb.1]

theorem Good.null {ty : Types V} {w : World V} {a : Arr} (h : Good ty w a) (hb : a.base = none) :
    IsNull a := by
  rcases h.own with ⟨ho, _⟩ | ⟨b', blk, hh, _⟩
  · exact ho
  · rw [hh.base] at hb; simp at hb

theorem Good.full {ty : Types V} {w : World V} {a : Arr} (h : Good ty w a) (hb : a.base ≠ none) :
    ∃ b blk, Holds w a b blk ∧ blk.live = cnt a.shape := by
  rcases h.own with ⟨ho, _⟩ | h
  · exact absurd ho.base hb
  · exact h

/-- Two objects with the same non-null base pointer are the same. -/
theorem Inv.base_inj {ty : Types V} {w : World V} (hI : Inv ty w) {x y : Nat} {a o : Arr}
    (ha : w.vars x = some a) (ho : w.vars y = some o) (hb : a.base = o.base) (hn : a.base ≠ none) :
    x = y := by
  cases hc : a.base with
  | none => exact absurd hc hn
  | some p =>
    obtain ⟨b, q⟩ := p
    exact hI.disj x y a o b 0 0 ha ho ((hI.good x a ha).base_block hc)
      ((hI.good y o ho).base_block (hb ▸ hc))

/-- Replacing an object without memory by another one. -/
theorem Inv.set_null {ty : Types V} {w : World V} (hI : Inv ty w) {x : Nat} {a a' : Arr}
    (ha : w.vars x = some a) (hn : IsNull a) (hn' : IsNull a')
    (hse : a'.alloc.self = x) (hs : ShapeOk ty a'.shape)
    (hd : Bare ty a'.shape) :
    Inv ty (w.setVar x (some a')) := by
  have hx := hI.lt ha
  have h0 : InvBut ty w x := hI.but_new (by
    intro a1 h1; rw [ha] at h1; simp only [Option.some.injEq] at h1; subst h1; exact hn.buffer)
  have h1 : InvBut ty (w.setVar x (some a')) x :=
    h0.of_vars (fun y hy => by rw [setVar_vars, if_neg hy]) rfl rfl (fun _ _ h => h)
  exact h1.close (setVar_self _ _ _) hse hx hn' hs hd

theorem step_setVar (w : World V) (x : Nat) (a : Option Arr) : Step (· = x) w (w.setVar x a) :=
  ⟨fun y hy => by rw [setVar_vars, if_neg hy], fun _ _ _ _ _ _ => rfl⟩

theorem setShapeMember_ok {w : World V} {x : Nat} {a : Arr} (ha : w.vars x = some a) (s : Shape) :
    setShapeMember x s w = .ok (w.setVar x (some { a with shape := s })) := by
  unfold setShapeMember; rw [get_ok ha, bind_ok]

theorem assign_ok (keep : Bool) {ty : Types V} {w : World V} {x y : Nat} {a o : Arr} (hI : Inv ty w)
    (ha : w.vars x = some a) (ho : w.vars y = some o) (hsrc : SrcOk ty o) :
    ∃ w' a', assignArr keep ty x y w = .ok w' ∧ Inv ty w' ∧
      Step (fun z => z = x ∨ (keep = false ∧ z = y)) w w' ∧ (y ≠ x → w'.vars y = some o) ∧
      w'.nextVar = w.nextVar ∧ a'.alloc.idle = a.alloc.idle ∧ Received keep ty w w' x y o a' ∧
      (a.base ≠ o.base → keep = false → Injective o.shape → ∀ i, InBox o.shape i →
        elem w' y i = (elem w y i).map ty.moved) := by
  have hg := hI.good x a ha
  have hog := hI.good y o ho
  have e0 : assignArr keep ty x y w = (if a.base = o.base then
      (if a.base.isSome then assert ty (decide (a.shape = o.shape)) w
      else setShapeMember x o.shape w >>= fun w => assert ty o.shape.empty w)
    else (if a.base.isSome && decide (a.shape = o.shape) then destroy ty x w >>= transfer keep ty x y
      else deallocate ty x w >>= fun w => setShapeMember x o.shape w >>= fun w =>
        allocate ty x w >>= transfer keep ty x y)) := by
    unfold assignArr transfer
    cases keep
    · simp only [Bool.false_eq_true, if_false]
      unfold assignMove
      rw [get_ok ha, get_ok ho]
      rfl
    · simp only [if_true]
      unfold assignCopy
      rw [get_ok ha, get_ok ho]
      rfl
  rw [e0]
  clear e0
  by_cases hbb : a.base = o.base
  · rw [if_pos hbb]
    by_cases hbn : a.base = none
    · rw [if_neg (by simp [hbn])]
      rw [setShapeMember_ok ha, bind_ok]
      have hob : o.base = none := hbb ▸ hbn
      have hp := (hsrc hob).1
      refine ⟨_, { a with shape := o.shape }, assert_ok (fun _ => (empty_iff_not_pos hog.shape.nonNeg).2 hp) _,
        ?_, ?_, ?_, rfl, rfl, ⟨setVar_self _ _ _, Or.inl rfl, fun _ _ => hsrc hob, ?_⟩, fun h => absurd hbb h⟩
      · exact hI.set_null ha (hg.null hbn) ⟨(hg.null hbn).buffer, hbn, (hg.null hbn).idle⟩ (hI.self x a ha) hog.shape (Or.inr (Or.inl hp))
      · exact (step_setVar _ _ _).mono fun z hz => Or.inl hz
      · intro h; rw [setVar_vars, if_neg h]; exact ho
      · intro _ i hi
        exact absurd (pos_of_inBox hi) hp
    · rw [if_pos (by simp [Option.isSome_iff_ne_none, hbn])]
      have hxy := hI.base_inj ha ho hbb hbn
      subst hxy
      rw [ha] at ho
      simp only [Option.some.injEq] at ho
      subst ho
      exact ⟨w, a, assert_ok (by simp) _, hI, Step.refl _ _, fun h => absurd rfl h, rfl, rfl,
        ⟨ha, Or.inl rfl, id, fun _ _ _ => rfl⟩, fun h => absurd rfl h⟩
  · rw [if_neg hbb]
    have hyx : y ≠ x := by
      rintro rfl
      rw [ha] at ho
      simp only [Option.some.injEq] at ho
      exact hbb (by rw [ho])
    by_cases hre : a.base ≠ none ∧ a.shape = o.shape
    · -- the memory is used again
      obtain ⟨hbn, hsh⟩ := hre
      rw [if_pos (by simp [Option.isSome_iff_ne_none, hbn, hsh])]
      obtain ⟨b, blk, hh, hl⟩ := hg.full hbn
      obtain ⟨w1, e1, s1, hb1⟩ := destroy_holds ty ha hh hg.shape.nonNeg hl
      rw [e1, bind_ok]
      have hdis : ∀ c q, o.buffer = some (c, q) → c ≠ b := by
        rintro c q hc rfl
        exact hyx (hI.disj y x o a c q 0 ho ha hc hh.buffer)
      have hready : Ready ty w1 x y a o := by
        refine ⟨by rw [s1.vars]; exact ha, by rw [s1.vars]; exact ho, hg.shape.nonNeg, by rw [hsh], ?_, ?_, ?_,
          Or.inl hsh⟩
        · exact Or.inr ⟨b, _, ⟨hh.buffer, hh.base, hb1, hh.arena, hh.size, hh.bufferSize, hh.known⟩, rfl⟩
        · rcases hog.own with ⟨h1, _⟩ | ⟨c, sblk, h1, h2⟩
          · exact Or.inl ⟨h1, (hsrc h1.base).1⟩
          · refine Or.inr ⟨c, sblk, ⟨h1.buffer, h1.base, ?_, h1.arena, h1.size, h1.bufferSize, h1.known⟩, h2⟩
            rw [s1.heap c (hdis c 0 h1.buffer)]; exact h1.heap
        · intro b' c p q hb' hc
          rw [hh.buffer] at hb'
          simp only [Option.some.injEq, Prod.mk.injEq] at hb'
          rw [← hb'.1]; exact hdis c q hc
      obtain ⟨w2, e2, ht⟩ := transfer_ok keep hready (fun hb => by rw [hsh]; exact (hsrc hb).1)
      have hown := ht.own b _ ⟨hh.buffer, hh.base, hb1, hh.arena, hh.size, hh.bufferSize, hh.known⟩
      obtain ⟨val, hval⟩ := hown
      have hsame : ∀ i, elem w1 y i = elem w y i := by
        intro i
        unfold elem
        rw [get_ok (by rw [s1.vars]; exact ho), get_ok ho, bind_ok, bind_ok]
        rcases hog.own with ⟨h1, _⟩ | ⟨c, sblk, h1, h2⟩
        · rw [h1.base]
        · rw [h1.base]
          simp only [readAt, World.block]
          rw [s1.heap c (hdis c 0 h1.buffer)]
      refine ⟨w2, a, e2, ?_, ⟨?_, ?_⟩, fun _ => by rw [ht.vars, s1.vars]; exact ho,
        by rw [ht.nextVar, s1.nextVar], rfl, ⟨by rw [ht.vars, s1.vars]; exact ha, Or.inl hsh, ?_, ?_⟩, ?_⟩
      · apply hI.of_skel (by rw [ht.vars, s1.vars]) (by rw [ht.nextVar, s1.nextVar])
          (by rw [ht.nextBlock, s1.nextBlock])
        intro c
        by_cases hc : c = b
        · subst hc
          rw [skel_some hval, skel_some hh.heap, hl]
        · rw [ht.skel c (by rw [hh.buffer]; simp; exact fun h => hc h.symm), s1.skel hc]
      · intro z _; rw [ht.vars, s1.vars]
      · intro z a2 c hz ha2 hc
        rw [not_or] at hz
        have hcb : c ≠ b := by
          rintro rfl
          exact hz.1 (hI.disj z x a2 a c 0 0 ha2 ha hc hh.buffer)
        rw [ht.heap c (by rw [hh.buffer]; simp; exact fun h => hcb h.symm) ?_, s1.heap c hcb]
        cases keep
        · right
          intro hoc
          exact hz.2 ⟨rfl, hI.disj z y a2 o c 0 0 ha2 ho hc hoc⟩
        · exact Or.inl rfl
      · intro _ hb; exact absurd hb hbn
      · intro hk i hi
        rw [ht.vals (by rwa [hsh]) i hi, hsame]
      · intro _ hk hi i hb
        rw [ht.left hk (by rwa [hsh]) i (by rwa [hsh]), hsame]
    · rw [if_neg (by
        simp only [Bool.and_eq_true, Option.isSome_iff_ne_none, decide_eq_true_eq]; exact hre)]
      obtain ⟨w1, a1, e1, hI1, hv1, hn1, hal1, _, hnv1, hst1⟩ := deallocate_ok ty hI ha
      have ha1 : w1.vars x = some a1 := by rw [hv1]; simp
      have hx := hI.lt ha
      obtain ⟨w', a', e, h1, h2, h3, h4, h5, h6, h7⟩ := build_transfer keep (w := w1) hI1 ha1 hn1.buffer
        hn1.idle (by rw [hal1]; exact hI.self x a ha) (by omega) hyx (by rw [hv1, if_neg hyx]; exact ho) hsrc
      refine ⟨w', a', ?_, h1, (hst1.mono fun z hz => Or.inl hz).trans h2, fun _ => h3, by rw [h4, hnv1],
        by rw [h5, hal1]; rfl, ⟨h6.var, h6.shape, h6.src, ?_⟩, ?_⟩
      · rw [e1, bind_ok]
        exact e
      · intro hk i hi
        rw [h6.vals hk i hi, hst1.elem hI hyx]
      · intro _ hk hi i hb
        rw [h7 hk hi i hb, hst1.elem hI hyx]

/-! ### Exchanging two arrays -/

/-- The allocator `al` of the object `x` can take over the memory of `o`. -/
structure Passes (al : Allocator) (x : Nat) (o : Arr) : Prop where
  self : al.self = x
  idle : al.allocated = false
  other : o.alloc.allocated = false
  arena : o.buffer ≠ none → al.arena = o.alloc.arena

theorem Allocator.eq_iff {al al' : Allocator} (h : al.self ≠ al'.self) :
    al.eq al' = true ↔ al.allocated = false ∧ al'.allocated = false ∧ al.arena = al'.arena := by
  unfold Allocator.eq
  cases al.allocated <;> cases al'.allocated <;> simp [h]

/-- Allocators that move with the container have no buffer. -/
theorem Inv.plain {ty : Types V} {w : World V} (hI : Inv ty w) (hdef : TypesOk ty)
    (hp : ty.propagateMove = true ∨ ty.propagateSwap = true) {x : Nat} {a : Arr} (ha : w.vars x = some a) :
    a.alloc.allocated = false := by
  have h0 : ty.inlineSize = 0 := by
    rcases hdef.inline with h | h
    · exact h
    · rcases hp with hp | hp
      · rw [h.1] at hp; simp at hp
      · rw [h.2] at hp; simp at hp
  have hg := hI.good x a ha
  by_cases hb : a.buffer = none
  · rcases hg.own with ⟨hn, _⟩ | ⟨b, blk, hh, _⟩
    · exact hn.idle
    · rw [hh.buffer] at hb; simp at hb
  · obtain ⟨h1, h2⟩ := hg.fits hb
    rw [h2, h0]
    simp only [decide_eq_false_iff_not]
    omega

/-- Exchanging the memory of two objects. -/
theorem Inv.exchange {ty : Types V} {w w' : World V} (hI : Inv ty w) {x y : Nat} {a o : Arr} (hxy : x ≠ y)
    (ha : w.vars x = some a) (ho : w.vars y = some o) {al1 al2 : Allocator}
    (h1 : Passes al1 x o) (h2 : Passes al2 y a)
    (hv : ∀ z, w'.vars z = if z = y then some { a with alloc := al2 } else
      if z = x then some { o with alloc := al1 } else w.vars z)
    (hh : w'.heap = w.heap) (hnb : w'.nextBlock = w.nextBlock) (hnv : w'.nextVar = w.nextVar) :
    Inv ty w' := by
  have hgood : ∀ {x : Nat} {a : Arr} {al : Allocator}, Good ty w a → Passes al x a →
      Good ty w' { a with alloc := al } := by
    intro x a al hg hal
    refine ⟨hg.shape, ?_, fun h => ⟨(hg.fits h).1, by rw [← (hg.fits h).2, hal.other]; exact hal.idle⟩⟩
    rcases hg.own with ⟨hn, hd⟩ | ⟨b, blk, hb, hl⟩
    · exact Or.inl ⟨⟨hn.buffer, hn.base, hal.idle⟩, hd⟩
    · refine Or.inr ⟨b, blk, ⟨hb.buffer, hb.base, by rw [hh]; exact hb.heap, ?_, hb.size, hb.bufferSize,
        hb.known⟩, hl⟩
      rw [hb.arena]
      simp [Allocator.source, hal.other, hal.idle, hal.arena (by rw [hb.buffer]; simp)]
  -- `σ` is the object an object's memory comes from
  have hsrc : ∀ z c, w'.vars z = some c → ∃ c', w.vars (if z = y then x else if z = x then y else z) = some c' ∧
      c.buffer = c'.buffer := by
    intro z c hc
    rw [hv] at hc
    split at hc
    · rename_i hz
      simp only [Option.some.injEq] at hc
      exact ⟨a, by simp [hz, ha], by rw [← hc]⟩
    · rename_i hz
      split at hc
      · rename_i hz'
        simp only [Option.some.injEq] at hc
        exact ⟨o, by simp [hz', hxy, ho], by rw [← hc]⟩
      · rename_i hz'
        exact ⟨c, by simp [hz, hz', hc], rfl⟩
  refine ⟨?_, ?_, ?_, ?_, ?_, ?_⟩
  · intro z c hc
    rw [hv] at hc
    split at hc
    · simp only [Option.some.injEq] at hc
      rw [← hc]; exact hgood (hI.good x a ha) h2
    · split at hc
      · simp only [Option.some.injEq] at hc
        rw [← hc]; exact hgood (hI.good y o ho) h1
      · exact (hI.good z c hc).mono fun b _ => by unfold World.skel; rw [hh]
  · intro z z' c c' b q q' hz hz' hb hb'
    obtain ⟨d, hd, e⟩ := hsrc z c hz
    obtain ⟨d', hd', e'⟩ := hsrc z' c' hz'
    rw [e] at hb; rw [e'] at hb'
    have := hI.disj _ _ d d' b q q' hd hd' hb hb'
    split_ifs at this <;> omega
  · intro b hb
    rw [hh] at hb
    obtain ⟨z, c, hz, hc⟩ := hI.cover b hb
    by_cases hzx : z = x
    · subst hzx
      rw [ha] at hz
      simp only [Option.some.injEq] at hz
      exact ⟨y, _, by rw [hv, if_pos rfl], by rw [← hz] at hc; exact hc⟩
    · by_cases hzy : z = y
      · subst hzy
        rw [ho] at hz
        simp only [Option.some.injEq] at hz
        exact ⟨x, _, by rw [hv, if_neg hxy, if_pos rfl], by rw [← hz] at hc; exact hc⟩
      · exact ⟨z, c, by rw [hv, if_neg hzy, if_neg hzx]; exact hz, hc⟩
  · intro b hb
    rw [hh]; exact hI.fresh b (by omega)
  · intro z hz
    have hx := hI.lt ha
    have hy := hI.lt ho
    rw [hv, if_neg (by omega), if_neg (by omega)]
    exact hI.freshVar z (by omega)
  · intro z c hc
    rw [hv] at hc
    split at hc
    · rename_i hz
      simp only [Option.some.injEq] at hc
      rw [← hc, hz]; exact h2.self
    · split at hc
      · rename_i hz
        simp only [Option.some.injEq] at hc
        rw [← hc, hz]; exact h1.self
      · exact hI.self z c hc

/-- `swap_except_allocator`. -/
theorem swapExceptAllocator_ok {w : World V} {x y : Nat} {a o : Arr} (ha : w.vars x = some a)
    (ho : w.vars y = some o) :
    swapExceptAllocator x y w = .ok ((w.setVar x (some { o with alloc := a.alloc })).setVar y
      (some { a with alloc := o.alloc })) := by
  unfold swapExceptAllocator
  rw [get_ok ha, bind_ok, get_ok ho, bind_ok]

/-- `swap(alloc_, other.alloc_); swap_except_allocator(other)` exchanges the two objects, except for which
objects they are. -/
theorem swapBoth_ok {w : World V} {x y : Nat} {a o : Arr} (hxy : x ≠ y) (ha : w.vars x = some a)
    (ho : w.vars y = some o) :
    ∃ w', (swapAllocator x y w >>= swapExceptAllocator x y) = .ok w' ∧
      (∀ z, w'.vars z = if z = y then some { a with alloc := ⟨a.alloc.arena, o.alloc.self, o.alloc.allocated⟩ }
        else if z = x then some { o with alloc := ⟨o.alloc.arena, a.alloc.self, a.alloc.allocated⟩ } else w.vars z) ∧
      w'.heap = w.heap ∧ w'.nextBlock = w.nextBlock ∧ w'.nextVar = w.nextVar ∧ w'.calls = w.calls := by
  unfold swapAllocator
  rw [get_ok ha, bind_ok, get_ok ho, bind_ok, bind_ok]
  rw [swapExceptAllocator_ok (a := { a with alloc := { a.alloc with arena := o.alloc.arena } })
    (o := { o with alloc := { o.alloc with arena := a.alloc.arena } })
    (by simp [setVar_vars, hxy]) (by simp [setVar_vars])]
  refine ⟨_, rfl, ?_, rfl, rfl, rfl, rfl⟩
  intro z
  simp only [setVar_vars]
  split
  · rfl
  · split <;> rfl

end Nda
