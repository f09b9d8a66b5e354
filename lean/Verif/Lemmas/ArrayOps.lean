import Verif.Lemmas.ArrayInv
/-
The effect of the operations of `array` on the invariant and on the contents.
-/
namespace Nda
open Spec

variable {V : Type} [Hollow V]

/-- Objects outside of `T`, and their elements, do not change. -/
structure Step (T : Nat → Prop) (w w' : World V) : Prop where
  vars : ∀ y, ¬ T y → w'.vars y = w.vars y
  heap : ∀ y a c, ¬ T y → w.vars y = some a → a.buffer = some (c, 0) → w'.heap c = w.heap c

theorem Step.refl (T : Nat → Prop) (w : World V) : Step T w w := ⟨fun _ _ => rfl, fun _ _ _ _ _ _ => rfl⟩

theorem Step.trans {T : Nat → Prop} {w w' w'' : World V} (h : Step T w w') (h' : Step T w' w'') :
    Step T w w'' := by
  refine ⟨fun y hy => (h'.vars y hy).trans (h.vars y hy), fun y a c hy ha hc => ?_⟩
  rw [h'.heap y a c hy (by rw [h.vars y hy]; exact ha) hc, h.heap y a c hy ha hc]

theorem Step.mono {T U : Nat → Prop} {w w' : World V} (h : Step T w w') (hTU : ∀ y, T y → U y) :
    Step U w w' :=
  ⟨fun y hy => h.vars y fun ht => hy (hTU y ht), fun y a c hy => h.heap y a c fun ht => hy (hTU y ht)⟩

/-- The invariant only depends on objects and administrative data. -/
theorem Inv.of_skel {ty : Types V} {w w' : World V} (hI : Inv ty w) (hv : w'.vars = w.vars)
    (hnv : w'.nextVar = w.nextVar) (hnb : w'.nextBlock = w.nextBlock)
    (hs : ∀ c, w'.skel c = w.skel c) : Inv ty w' := by
  have hn : ∀ c, w'.heap c = none ↔ w.heap c = none := by
    intro c
    have := hs c
    unfold World.skel at this
    constructor <;> intro h <;> rw [h] at this <;> simpa using this
  refine ⟨?_, ?_, ?_, ?_, ?_, fun y a ha => hI.self y a (by rw [← hv]; exact ha)⟩
  · intro y a ha
    rw [hv] at ha
    exact (hI.good y a ha).mono fun b _ => hs b
  · intro y z a a' b o o' hy hz
    rw [hv] at hy hz
    exact hI.disj y z a a' b o o' hy hz
  · intro b hb
    rw [hv]
    exact hI.cover b (by rwa [Ne, ← hn])
  · intro b hb
    rw [hn]; exact hI.fresh b (by omega)
  · intro y hy
    rw [hv]; exact hI.freshVar y (by omega)

theorem elem_holds {w : World V} {x : Nat} {a : Arr} {b : Nat} {blk : Block V} (ha : w.vars x = some a)
    (hbase : a.base = some (b, 0 - a.shape.flatMin)) (hh : w.heap b = some blk)
    (hs : blk.size = a.shape.flatExtent) (hl : blk.live = cnt a.shape) {i : Index} (hi : InBox a.shape i) :
    elem w x i = .ok (blk.val (0 - a.shape.flatMin + offsetOf a.shape i)) := by
  unfold elem
  rw [get_ok ha, bind_ok, hbase]
  simp only [flatOffset_eq]
  have := elem_range hi
  apply readAt_ok hh this.1 (by rw [hs]; exact this.2)
  rw [hl, cnt_pos_iff]; exact ⟨i, hi, rfl⟩

/-- Reading an element of an object that did not change. -/
theorem Step.elem {ty : Types V} {T : Nat → Prop} {w w' : World V} (hI : Inv ty w) (h : Step T w w')
    {y : Nat} (hy : ¬ T y) (i : Index) : elem w' y i = elem w y i := by
  unfold Nda.elem World.get
  rw [h.vars y hy]
  cases ha : w.vars y with
  | none => rfl
  | some a =>
    simp only [bind_ok]
    rcases (hI.good y a ha).own with ⟨ho, _⟩ | ⟨b, blk, hh, _⟩
    · rw [ho.base]
    · rw [hh.base]
      simp only [readAt, World.block, h.heap y a b hy ha hh.buffer]

theorem Good.elem_ok {ty : Types V} {w : World V} {x : Nat} {a : Arr} (ha : w.vars x = some a)
    (hg : Good ty w a) (hb : a.base ≠ none) {i : Index} (hi : InBox a.shape i) :
    ∃ v, elem w x i = .ok v := by
  rcases hg.own with ⟨ho, _⟩ | ⟨b, blk, hh, hl⟩
  · exact absurd ho.base hb
  · exact ⟨_, elem_holds ha hh.base hh.heap hh.size hl hi⟩

theorem cnt_eq_zero {s : Shape} (h : ¬ Pos s) : cnt s = fun _ => 0 := by
  funext o
  by_contra hc
  obtain ⟨i, hi, _⟩ := (cnt_pos_iff s o).1 (by omega)
  exact h (pos_of_inBox hi)

/-! ### Copying or moving all elements -/

/-- What `copy_construct` (`keep`) or `move_construct` does to the elements of `x`, whose memory is
uninitialised, from the elements of `y`. -/
structure Transfer (keep : Bool) (ty : Types V) (w w' : World V) (x y : Nat) (a o : Arr) : Prop where
  vars : w'.vars = w.vars
  nextVar : w'.nextVar = w.nextVar
  nextBlock : w'.nextBlock = w.nextBlock
  heap : ∀ c, a.buffer ≠ some (c, 0) → (keep = true ∨ o.buffer ≠ some (c, 0)) → w'.heap c = w.heap c
  skel : ∀ c, a.buffer ≠ some (c, 0) → w'.skel c = w.skel c
  own : ∀ b blk, Holds w a b blk → ∃ val, w'.heap b = some { blk with live := cnt a.shape, val := val }
  vals : (keep = true ∨ Injective a.shape) → ∀ i, InBox a.shape i → elem w' x i = elem w y i
  left : keep = false → Injective a.shape → ∀ i, InBox a.shape i → elem w' y i = (elem w y i).map ty.moved

/-- Everything `copy_construct` and `move_construct` need. -/
structure Ready (ty : Types V) (w : World V) (x y : Nat) (a o : Arr) : Prop where
  ha : w.vars x = some a
  ho : w.vars y = some o
  nonNeg : NonNeg a.shape
  len : List.length o.shape = List.length a.shape
  hA : (IsNull a ∧ ¬ Pos a.shape) ∨ ∃ b blk, Holds w a b blk ∧ blk.live = fun _ => 0
  hO : (IsNull o ∧ ¬ Pos o.shape) ∨ ∃ c sblk, Holds w o c sblk ∧ sblk.live = cnt o.shape
  hdis : ∀ b c p q, a.buffer = some (b, p) → o.buffer = some (c, q) → c ≠ b
  hsh : a.shape = o.shape ∨ (o.base = none ∧ ty.debug = false)

theorem Transfer.of_null {keep : Bool} {ty : Types V} {w : World V} {x y : Nat} {a o : Arr}
    (h : Ready ty w x y a o) (hp : ¬ Pos a.shape) : Transfer keep ty w w x y a o := by
  refine ⟨rfl, rfl, rfl, fun _ _ _ => rfl, fun _ _ => rfl, ?_, ?_, fun _ _ i hi => absurd (pos_of_inBox hi) hp⟩
  · intro b blk hb
    rcases h.hA with ⟨hn, _⟩ | ⟨b', blk', hh, hl⟩
    · have := hb.buffer; rw [hn.buffer] at this; simp at this
    · have : b' = b := by
        have := hh.buffer; rw [hb.buffer] at this; simpa using this.symm
      subst this
      have : blk' = blk := by
        have := hh.heap; rw [hb.heap] at this; simpa using this.symm
      subst this
      refine ⟨blk'.val, ?_⟩
      rw [hb.heap, cnt_eq_zero hp, ← hl]
  · intro _ i hi
    exact absurd (pos_of_inBox hi) hp

theorem Ready.empty_or {ty : Types V} {w : World V} {x y : Nat} {a o : Arr} (h : Ready ty w x y a o)
    (hc : a.base = none ∨ o.base = none) : ¬ Pos a.shape ∨ (ty.debug = false ∧ o.base = none) := by
  rcases h.hA with ⟨_, hp⟩ | ⟨b, blk, hh, hl⟩
  · exact Or.inl hp
  · rcases h.hsh with hs | hs
    · rcases h.hO with ⟨_, hp⟩ | ⟨c, sblk, hs', _⟩
      · left; rwa [hs]
      · rcases hc with hc | hc
        · rw [hh.base] at hc; simp at hc
        · rw [hs'.base] at hc; simp at hc
    · exact Or.inr ⟨hs.2, hs.1⟩

theorem copyConstruct_transfer {ty : Types V} {w : World V} {x y : Nat} {a o : Arr}
    (h : Ready ty w x y a o) (hpe : o.base = none → ¬ Pos a.shape) :
    ∃ w', copyConstruct ty x y w = .ok w' ∧ Transfer true ty w w' x y a o := by
  by_cases hc : a.base = none ∨ o.base = none
  · have hp : ¬ Pos a.shape := by
      rcases hc with hc | hc
      · rcases h.hA with ⟨_, hp⟩ | ⟨b, blk, hh, _⟩
        · exact hp
        · rw [hh.base] at hc; simp at hc
      · exact hpe hc
    refine ⟨w, ?_, Transfer.of_null h hp⟩
    refine copyConstruct_null ty h.ha h.ho hc h.len (fun _ => (empty_iff_not_pos h.nonNeg).2 hp) ?_
    intro hd
    rcases h.hsh with hs | ⟨_, hs⟩
    · exact hs
    · rw [hd] at hs; simp at hs
  · rw [not_or] at hc
    rcases h.hA with ⟨hn, _⟩ | ⟨b, blk, hh, hl⟩
    · exact absurd hn.base hc.1
    rcases h.hO with ⟨hn, _⟩ | ⟨c, sblk, hs, hsl⟩
    · exact absurd hn.base hc.2
    have hsh : a.shape = o.shape := by
      rcases h.hsh with h | h
      · exact h
      · exact absurd h.1 hc.2
    obtain ⟨w', val, e, s, hb, hv⟩ := copyConstruct_holds ty h.ha h.ho hh hs
      (h.hdis _ _ _ _ hh.buffer hs.buffer) hsh h.nonNeg hl hsl
    refine ⟨w', e, s.vars, s.nextVar, s.nextBlock, ?_, ?_, ?_, ?_, by simp⟩
    · intro k hk _
      exact s.heap k fun e => hk (by rw [hh.buffer, e])
    · intro k hk
      unfold World.skel
      rw [s.heap k fun e => hk (by rw [hh.buffer, e])]
    · intro b' blk' hb'
      have e1 : b' = b := by have := hh.buffer; rw [hb'.buffer] at this; simpa using this
      subst e1
      have e2 : blk' = blk := by have := hh.heap; rw [hb'.heap] at this; simpa using this
      subst e2
      exact ⟨val, hb⟩
    · intro _ i hi
      rw [elem_holds (by rw [s.vars]; exact h.ha) hh.base hb hh.size rfl hi]
      dsimp only
      rw [hv i hi, elem_holds h.ho hs.base hs.heap hs.size hsl (by rwa [← hsh]), hsh]

theorem moveConstruct_transfer {ty : Types V} {w : World V} {x y : Nat} {a o : Arr}
    (h : Ready ty w x y a o) (hpe : o.base = none → ¬ Pos a.shape) :
    ∃ w', moveConstruct ty x y w = .ok w' ∧ Transfer false ty w w' x y a o := by
  by_cases hc : a.base = none ∨ o.base = none
  · have hp : ¬ Pos a.shape := by
      rcases hc with hc | hc
      · rcases h.hA with ⟨_, hp⟩ | ⟨b, blk, hh, _⟩
        · exact hp
        · rw [hh.base] at hc; simp at hc
      · exact hpe hc
    refine ⟨w, ?_, Transfer.of_null h hp⟩
    refine moveConstruct_null ty h.ha h.ho hc h.len (fun _ => (empty_iff_not_pos h.nonNeg).2 hp) ?_
    intro hd
    rcases h.hsh with hs | ⟨_, hs⟩
    · exact hs
    · rw [hd] at hs; simp at hs
  · rw [not_or] at hc
    rcases h.hA with ⟨hn, _⟩ | ⟨b, blk, hh, hl⟩
    · exact absurd hn.base hc.1
    rcases h.hO with ⟨hn, _⟩ | ⟨c, sblk, hs, hsl⟩
    · exact absurd hn.base hc.2
    have hsh : a.shape = o.shape := by
      rcases h.hsh with h | h
      · exact h
      · exact absurd h.1 hc.2
    obtain ⟨w', vs, vd, e, s, hb, hbs, hv⟩ := moveConstruct_holds ty h.ha h.ho hh hs
      (h.hdis _ _ _ _ hh.buffer hs.buffer) hsh h.nonNeg hl hsl
    refine ⟨w', e, s.vars, s.nextVar, s.nextBlock, ?_, ?_, ?_, ?_, ?_⟩
    · intro k hk hk2
      refine s.heap k ?_
      rintro (e | e)
      · subst e
        rcases hk2 with hk2 | hk2
        · simp at hk2
        · exact hk2 hs.buffer
      · exact hk (by rw [hh.buffer, e])
    · intro k hk
      by_cases hkc : k = c
      · subst hkc
        rw [skel_some hbs, skel_some hs.heap]
      · unfold World.skel
        rw [s.heap k (by
          rintro (e | e)
          · exact hkc e
          · exact hk (by rw [hh.buffer, e]))]
    · intro b' blk' hb'
      have e1 : b' = b := by have := hh.buffer; rw [hb'.buffer] at this; simpa using this
      subst e1
      have e2 : blk' = blk := by have := hh.heap; rw [hb'.heap] at this; simpa using this
      subst e2
      exact ⟨vd, hb⟩
    · intro hi i hb'
      have hi : Injective a.shape := by
        rcases hi with h | h
        · simp at h
        · exact h
      rw [elem_holds (by rw [s.vars]; exact h.ha) hh.base hb hh.size rfl hb']
      dsimp only
      rw [(hv hi i hb').1, elem_holds h.ho hs.base hs.heap hs.size hsl (by rwa [← hsh]), hsh]
    · intro _ hi i hb'
      rw [elem_holds (a := o) (by rw [s.vars]; exact h.ho) hs.base hbs hs.size hsl (by rwa [← hsh]),
        elem_holds h.ho hs.base hs.heap hs.size hsl (by rwa [← hsh])]
      have := (hv hi i hb').2
      rw [hsh] at this
      dsimp only
      rw [this]; rfl

/-- Either of the two. -/
def transfer (keep : Bool) (ty : Types V) (x y : Nat) (w : World V) : Except Fault (World V) :=
  if keep then copyConstruct ty x y w else moveConstruct ty x y w

theorem transfer_ok (keep : Bool) {ty : Types V} {w : World V} {x y : Nat} {a o : Arr}
    (h : Ready ty w x y a o) (hpe : o.base = none → ¬ Pos a.shape) :
    ∃ w', transfer keep ty x y w = .ok w' ∧ Transfer keep ty w w' x y a o := by
  cases keep
  · exact moveConstruct_transfer h hpe
  · exact copyConstruct_transfer h hpe

/-! ### Building an array in an object that owns nothing -/

/-- After `allocate` and filling in the elements. -/
theorem finish_alloc {ty : Types V} {w w1 w2 : World V} {x : Nat} {a1 : Arr} (hI : InvBut ty w x)
    (hx : x < w.nextVar)
    (hv1 : ∀ y, w1.vars y = if y = x then some a1 else w.vars y)
    (hnv : w1.nextVar = w.nextVar) (hs1 : ShapeOk ty a1.shape) (hse : a1.alloc.self = x)
    (hfit : a1.buffer ≠ none →
      0 < a1.shape.flatExtent ∧ a1.alloc.allocated = decide (a1.shape.flatExtent ≤ ty.inlineSize))
    (hh1 : ∀ c, c ≠ w.nextBlock → w1.heap c = w.heap c)
    (halt : (IsNull a1 ∧ ¬ Pos a1.shape ∧ w1.heap = w.heap ∧ w1.nextBlock = w.nextBlock) ∨
       (∃ blk, Holds w1 a1 w.nextBlock blk ∧ blk.live = (fun _ => 0) ∧ w1.nextBlock = w.nextBlock + 1))
    (hv2 : w2.vars = w1.vars) (hnv2 : w2.nextVar = w1.nextVar) (hnb2 : w2.nextBlock = w1.nextBlock)
    (hsk : ∀ c, a1.buffer ≠ some (c, 0) → w2.skel c = w1.skel c)
    (hown : ∀ b blk, Holds w1 a1 b blk → ∃ val, w2.heap b = some { blk with live := cnt a1.shape, val := val }) :
    Inv ty w2 := by
  have hxa : w2.vars x = some a1 := by rw [hv2, hv1]; simp
  have hne : ∀ c, w.heap c ≠ none → c ≠ w.nextBlock := fun c hc e => hc (hI.fresh c (by omega))
  have hbuf : ∀ c o, a1.buffer = some (c, o) → c = w.nextBlock ∧ o = 0 ∧ w1.nextBlock = w.nextBlock + 1 := by
    intro c o hc
    rcases halt with ⟨hn, _⟩ | ⟨blk, hh, _, hnb⟩
    · rw [hn.buffer] at hc; simp at hc
    · rw [hh.buffer] at hc
      simp only [Option.some.injEq, Prod.mk.injEq] at hc
      exact ⟨hc.1.symm, hc.2.symm, hnb⟩
  apply hI.finish
  · intro y hy
    rw [hv2, hv1, if_neg hy]
  · intro y _ h
    omega
  · intro _; omega
  · rw [hnb2]
    rcases halt with ⟨_, _, _, h⟩ | ⟨_, _, _, h⟩ <;> omega
  · intro c hc
    rw [hsk c (fun e => hne c hc (hbuf c 0 e).1)]
    unfold World.skel
    rw [hh1 c (hne c hc)]
  · intro a ha
    rw [hxa] at ha
    simp only [Option.some.injEq] at ha
    subst ha
    refine ⟨hs1, ?_, hfit⟩
    rcases halt with ⟨hn, hp, _, _⟩ | ⟨blk, hh, hl, _⟩
    · exact Or.inl ⟨hn, Or.inr (Or.inl hp)⟩
    · obtain ⟨val, hval⟩ := hown _ _ hh
      exact Or.inr ⟨_, _, ⟨hh.buffer, hh.base, hval, hh.arena, hh.size, hh.bufferSize, hh.known⟩, rfl⟩
  · intro a ha
    rw [hxa] at ha
    simp only [Option.some.injEq] at ha
    subst ha
    exact hse
  · intro a c o ha hc
    rw [hxa] at ha
    simp only [Option.some.injEq] at ha
    subst ha
    obtain ⟨h1, _, h3⟩ := hbuf c o hc
    exact ⟨by rw [h1]; exact hI.fresh _ le_rfl, by omega⟩
  · intro c hc
    by_cases hcb : a1.buffer = some (c, 0)
    · exact Or.inr ⟨a1, hxa, hcb⟩
    · left
      have h1 : w1.heap c ≠ none := by
        intro h
        have := hsk c hcb
        unfold World.skel at this
        rw [h] at this
        simp only [Option.map_none, Option.map_eq_none_iff] at this
        exact hc this
      rcases halt with ⟨_, _, h, _⟩ | ⟨blk, hh, _, _⟩
      · rwa [h] at h1
      · rwa [hh1 c (fun e => hcb (by rw [hh.buffer, e]))] at h1

/-- `allocate` and `construct`. -/
theorem build_fill {ty : Types V} {w : World V} {x : Nat} {a : Arr} (hI : InvBut ty w x)
    (ha : w.vars x = some a) (hn : a.buffer = none) (hi : a.alloc.allocated = false)
    (hse : a.alloc.self = x) (hs : ShapeOk ty a.shape)
    (hx : x < w.nextVar) (k : Call) (v : V) :
    ∃ w' a', (allocate ty x w >>= construct ty x k v) = .ok w' ∧ Inv ty w' ∧ Step (· = x) w w' ∧
      w'.nextVar = w.nextVar ∧ w'.vars x = some a' ∧ a'.shape = a.shape.resolve ∧
      a'.alloc.idle = a.alloc.idle ∧
      (a'.base = none → ¬ Pos a'.shape) ∧
      ∀ i, InBox a'.shape i → elem w' x i = .ok v := by
  obtain ⟨w1, a1, e1, hv1, hnv, hsh, hal, hfit, hh1, halt⟩ := allocate_ok ty ha hn hi hs
  have hs1 : ShapeOk ty a1.shape := by rw [hsh]; exact hs.resolve
  have hse1 : a1.alloc.self = x := (Allocator.idle_self hal).trans hse
  have ha1 : w1.vars x = some a1 := by rw [hv1]; simp
  rw [e1, bind_ok]
  have key : ∃ w', construct ty x k v w1 = .ok w' ∧ w'.vars = w1.vars ∧ w'.nextVar = w1.nextVar ∧
      w'.nextBlock = w1.nextBlock ∧ (∀ c, a1.buffer ≠ some (c, 0) → w'.heap c = w1.heap c) ∧
      (∀ b blk, Holds w1 a1 b blk → ∃ val, w'.heap b = some { blk with live := cnt a1.shape, val := val }) ∧
      ∀ i, InBox a1.shape i → elem w' x i = .ok v := by
    rcases halt with ⟨hnull, hp, h3, h4⟩ | ⟨blk, hh, hl, h4⟩
    · refine ⟨w1, construct_null ty ha1 hnull.base (fun _ => (empty_iff_not_pos hs1.nonNeg).2 hp) k v,
        rfl, rfl, rfl, fun _ _ => rfl, ?_, ?_⟩
      · intro b blk hb
        have := hb.buffer; rw [hnull.buffer] at this; simp at this
      · intro i hi; exact absurd (pos_of_inBox hi) hp
    · obtain ⟨w', val, e, s, hb, hv⟩ := construct_holds ty ha1 hh hs1.nonNeg hl k v
      refine ⟨w', e, s.vars, s.nextVar, s.nextBlock, ?_, ?_, ?_⟩
      · intro c hc
        exact s.heap c fun e => hc (by rw [hh.buffer, e])
      · intro b' blk' hb'
        have e1 : b' = w.nextBlock := by have := hh.buffer; rw [hb'.buffer] at this; simpa using this
        subst e1
        have e2 : blk' = blk := by have := hh.heap; rw [hb'.heap] at this; simpa using this
        subst e2
        exact ⟨val, hb⟩
      · intro i hi
        rw [elem_holds (by rw [s.vars]; exact ha1) hh.base hb hh.size rfl hi]
        dsimp only
        rw [hv i hi]
  obtain ⟨w', e, hv2, hnv2, hnb2, hheap, hown, hvals⟩ := key
  refine ⟨w', a1, e, ?_, ?_, by rw [hnv2, hnv], by rw [hv2]; exact ha1, hsh, hal, ?_, hvals⟩
  · exact finish_alloc hI hx hv1 hnv hs1 hse1 hfit hh1 halt hv2 hnv2 hnb2
      (fun c hc => by unfold World.skel; rw [hheap c hc]) hown
  · refine ⟨fun y hy => by rw [hv2, hv1, if_neg hy], ?_⟩
    intro y a2 c hy ha2 hc
    have hcn : w.heap c ≠ none := ((hI.good y a2 hy ha2).heap_ne hc).1
    have hcb : c ≠ w.nextBlock := fun e => hcn (hI.fresh c (by omega))
    rw [hheap c ?_, hh1 c hcb]
    intro hcc
    rcases halt with ⟨hnull, _⟩ | ⟨blk, hh, _⟩
    · rw [hnull.buffer] at hcc; simp at hcc
    · rw [hh.buffer] at hcc
      simp only [Option.some.injEq, Prod.mk.injEq, and_true] at hcc
      exact hcb hcc.symm
  · intro hb
    rcases halt with ⟨_, hp, _⟩ | ⟨blk, hh, _⟩
    · exact hp
    · rw [hh.base] at hb; simp at hb

/-- What an array looks like after receiving the elements of `o`. -/
structure Received (keep : Bool) (ty : Types V) (w w' : World V) (x y : Nat) (o a' : Arr) : Prop where
  var : w'.vars x = some a'
  shape : a'.shape = o.shape ∨ (o.base = none ∧ a'.shape = o.shape.resolve)
  src : SrcOk ty o → SrcOk ty a'
  vals : (keep = true ∨ Injective o.shape) → ∀ i, InBox a'.shape i → elem w' x i = elem w y i

/-- `shape_ = other.shape_`, `allocate` and `copy_construct` or `move_construct`. -/
theorem build_transfer (keep : Bool) {ty : Types V} {w : World V} {x y : Nat} {a o : Arr}
    (hI : InvBut ty w x) (ha : w.vars x = some a) (hn : a.buffer = none)
    (hi : a.alloc.allocated = false) (hse : a.alloc.self = x) (hx : x < w.nextVar) (hyx : y ≠ x) (ho : w.vars y = some o) (hsrc : SrcOk ty o) :
    ∃ w' a', (setShapeMember x o.shape w >>= fun w => allocate ty x w >>= transfer keep ty x y) = .ok w' ∧
      Inv ty w' ∧ Step (fun z => z = x ∨ (keep = false ∧ z = y)) w w' ∧ w'.vars y = some o ∧
      w'.nextVar = w.nextVar ∧ a'.alloc.idle = a.alloc.idle ∧ Received keep ty w w' x y o a' ∧
      (keep = false → Injective o.shape → ∀ i, InBox o.shape i → elem w' y i = (elem w y i).map ty.moved) := by
  have hog := hI.good y o hyx ho
  have e0 : setShapeMember x o.shape w = .ok (w.setVar x (some { a with shape := o.shape })) := by
    unfold setShapeMember; rw [get_ok ha, bind_ok]
  rw [e0, bind_ok]
  obtain ⟨w1, a1, e1, hv1, hnv, hsh, hal, hfit, hh1, halt⟩ := allocate_ok ty
    (w := w.setVar x (some { a with shape := o.shape })) (setVar_self _ _ _) hn hi hog.shape
  have hv1' : ∀ z, w1.vars z = if z = x then some a1 else w.vars z := by
    intro z
    rw [hv1]
    split
    · rfl
    · rename_i hz; rw [setVar_vars, if_neg hz]
  simp only at hsh hal
  have hs1 : ShapeOk ty a1.shape := by rw [hsh]; exact hog.shape.resolve
  have hse1 : a1.alloc.self = x := (Allocator.idle_self hal).trans hse
  have ha1 : w1.vars x = some a1 := by rw [hv1']; simp
  have ho1 : w1.vars y = some o := by rw [hv1', if_neg hyx]; exact ho
  rw [e1, bind_ok]
  have hpe : o.base = none → ¬ Pos a1.shape := fun hb => by
    rw [hsh, resolve_pos]; exact (hsrc hb).1
  have hfresh : ∀ c p, o.buffer = some (c, p) → c ≠ w.nextBlock := by
    intro c p hc e
    exact (hog.heap_ne hc).1 (hI.fresh c (by omega))
  have hready : Ready ty w1 x y a1 o := by
    refine ⟨ha1, ho1, hs1.nonNeg, by rw [hsh, resolve_length], ?_, ?_, ?_, ?_⟩
    · rcases halt with ⟨h1, h2, _⟩ | ⟨blk, h1, h2, _⟩
      · exact Or.inl ⟨h1, h2⟩
      · exact Or.inr ⟨_, blk, h1, h2⟩
    · rcases hog.own with ⟨h1, _⟩ | ⟨c, sblk, h1, h2⟩
      · exact Or.inl ⟨h1, (hsrc h1.base).1⟩
      · refine Or.inr ⟨c, sblk, ⟨h1.buffer, h1.base, ?_, h1.arena, h1.size, h1.bufferSize, h1.known⟩, h2⟩
        rw [hh1 c (hfresh c 0 h1.buffer)]; exact h1.heap
    · intro b c p q hb hc
      rcases halt with ⟨h1, _⟩ | ⟨blk, h1, _⟩
      · rw [h1.buffer] at hb; simp at hb
      · rw [h1.buffer] at hb
        simp only [Option.some.injEq, Prod.mk.injEq] at hb
        rw [← hb.1]; exact hfresh c q hc
    · rcases hog.own with ⟨h1, _⟩ | ⟨c, sblk, h1, h2⟩
      · cases hd : ty.debug
        · exact Or.inr ⟨h1.base, rfl⟩
        · left; rw [hsh]; exact resolve_of_known ((hsrc h1.base).2 hd)
      · left; rw [hsh]; exact resolve_of_known h1.known
  obtain ⟨w', e2, ht⟩ := transfer_ok keep hready hpe
  have hbufn : ∀ c, c ≠ w.nextBlock → a1.buffer ≠ some (c, 0) := by
    intro c hcb hcc
    rcases halt with ⟨hnull, _⟩ | ⟨blk, hh, _⟩
    · rw [hnull.buffer] at hcc; simp at hcc
    · rw [hh.buffer] at hcc
      simp only [Option.some.injEq, Prod.mk.injEq, and_true] at hcc
      exact hcb hcc.symm
  have hInv : Inv ty w' :=
    finish_alloc (w := w) hI hx hv1' hnv hs1 hse1 hfit hh1 halt ht.vars ht.nextVar ht.nextBlock ht.skel ht.own
  refine ⟨w', a1, e2, hInv, ⟨?_, ?_⟩, by rw [ht.vars]; exact ho1, by rw [ht.nextVar, hnv]; rfl, ?_⟩
  · intro z hz
    rw [not_or] at hz
    rw [ht.vars, hv1', if_neg hz.1]
  · intro z a2 c hz ha2 hc
    rw [not_or] at hz
    have hcn : w.heap c ≠ none := ((hI.good z a2 hz.1 ha2).heap_ne hc).1
    have hcb : c ≠ w.nextBlock := fun e => hcn (hI.fresh c (by omega))
    rw [ht.heap c (hbufn c hcb) ?_, hh1 c hcb]
    · rfl
    · cases keep
      · right
        intro hoc
        exact hz.2 ⟨rfl, hI.disj z y a2 o c 0 0 hz.1 hyx ha2 ho hc hoc⟩
      · exact Or.inl rfl
  · have hsame : ∀ i, elem w1 y i = elem w y i := by
      intro i
      unfold elem
      rw [get_ok ho1, get_ok ho, bind_ok, bind_ok]
      rcases hog.own with ⟨h1, _⟩ | ⟨c, sblk, h1, h2⟩
      · rw [h1.base]
      · rw [h1.base]
        simp only [readAt, World.block]
        rw [hh1 c (hfresh c 0 h1.buffer)]
        rfl
    refine ⟨hal, ⟨by rw [ht.vars]; exact ha1, ?_, ?_, ?_⟩, ?_⟩
    · rcases hready.hsh with h | h
      · exact Or.inl h
      · exact Or.inr ⟨h.1, hsh⟩
    · intro _ hb
      refine ⟨?_, fun _ => by rw [hsh]; exact resolve_known o.shape⟩
      rcases halt with ⟨_, hp, _⟩ | ⟨blk, hh, _⟩
      · exact hp
      · rw [hh.base] at hb; simp at hb
    · intro hk i hi
      have hk' : keep = true ∨ Injective a1.shape := by
        rcases hk with h | h
        · exact Or.inl h
        · rcases hready.hsh with h' | h'
          · right; rwa [h']
          · exact absurd (pos_of_inBox hi) (hpe h'.1)
      rw [ht.vals hk' i hi, hsame]
    · intro hk hi i hb
      have hob : o.base ≠ none := fun h => (hsrc h).1 (pos_of_inBox hb)
      have hsh' : a1.shape = o.shape := by
        rcases hready.hsh with h' | h'
        · exact h'
        · exact absurd h'.1 hob
      rw [ht.left hk (by rwa [hsh']) i (by rwa [hsh']), hsame]

end Nda
