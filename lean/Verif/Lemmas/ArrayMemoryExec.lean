import Verif.Lemmas.ArrayMemory
/-
The allocations of `swap`, and of every statement.
-/
namespace Nda
open Spec

variable {V : Type}

theorem blocksAssign_settled {a o : Arr} (ha : Settled a) (ho : Settled o) :
    blocksAssign a o = if a.shape = o.shape then 0 else blocksOf o := by
  unfold Settled at ha ho
  unfold blocksAssign
  by_cases hs : a.shape = o.shape
  · rw [if_pos hs]
    by_cases hb : a.base = none
    · have h0 : blocksOf o = 0 := by rw [ho, ← hs, ← ha, blocksOf_null hb]
      rw [if_neg (c := a.base ≠ none ∧ a.shape = o.shape) (fun h => h.1 hb), ← ho, h0, ite_self]
    · rw [if_neg (fun h => hb h.1), if_pos ⟨hb, hs⟩]
  · rw [if_neg hs, if_neg (c := a.base ≠ none ∧ a.shape = o.shape) (fun h => hs h.2), ← ho]
    split
    · rename_i h; rw [blocksOf_null h.2]
    · rfl

theorem blocksAssign_null {a o : Arr} (ha : a.base = none) (ho : Settled o) : blocksAssign a o = blocksOf o := by
  unfold Settled at ho
  unfold blocksAssign
  rw [if_neg (c := a.base ≠ none ∧ a.shape = o.shape) (fun h => h.1 ha), ← ho]
  split
  · rename_i h; rw [blocksOf_null h.2]
  · rfl

/-- The new array of a move has memory if its shape needs any. -/
theorem newMove_var {ty : Types V} {w w' : World V} (hI : Inv ty w) {y : Nat} {o an : Arr}
    (ho : w.vars y = some o) (hn : ¬ TakesNew ty o) (h : newMove ty y w = .ok w') (hv : w'.vars w.nextVar = some an) :
    an.shape = o.shape.resolve ∧ blocksOf an = blocksFor o.shape := by
  have hyn : w.nextVar ≠ o.alloc.self := by have := hI.lt ho; rw [hI.self y o ho]; omega
  have hcond : (ty.propagateMove || Allocator.eq ⟨allocatorForMove ty o, w.nextVar, false⟩ o.alloc) = true ↔
      TakesNew ty o := by
    rw [Bool.or_eq_true, Allocator.eq_iff hyn]
    unfold TakesNew allocatorForMove
    cases ty.propagateMove <;> simp
  unfold newMove at h
  dsimp only at h
  rw [get_ok ho, bind_ok, if_neg (by rwa [hcond])] at h
  replace h := ok_of_bind h
  obtain ⟨w1, h1, h⟩ := h
  replace h := ok_of_bind h
  obtain ⟨w2, h2, h⟩ := h
  obtain ⟨_, a', hv', hs, hb⟩ := allocate_blocks (loggedVar_setShape
    (a := ⟨⟨allocatorForMove ty o, w.nextVar, false⟩, none, 0, none, ty.defaultShape⟩)
    (by rw [push_vars, if_pos rfl]) h1).self h2
  have h3 : w'.vars = w2.vars := (still_transfer false h).vars
  rw [h3, hv', Option.some.injEq] at hv
  subst hv
  exact ⟨hs, hb⟩

theorem swap_blocks {ty : Types V} {w w' : World V} {x y : Nat} {a o : Arr} (hI : Inv ty w)
    (hdef : TypesOk ty) (ha : w.vars x = some a) (ho : w.vars y = some o)
    (hsa : SrcOk ty a) (hso : SrcOk ty o) (hself : x = y → ty.debug = true → ¬ Pos ty.defaultShape)
    (hset : ty.propagateSwap = true ∨ ty.propagateMove = true ∨ OnHeap ty a ∧ OnHeap ty o ∨ Settled a ∧ Settled o)
    (h : swap ty x y w = .ok w') : w'.nextBlock = w.nextBlock + blocksSwap ty (x = y) a o := by
  unfold blocksSwap
  by_cases hps : ty.propagateSwap = true
  · unfold swap at h
    rw [if_pos hps] at h
    replace h := ok_of_bind h
    obtain ⟨w1, h1, h⟩ := h
    rw [if_pos (Or.inl hps), quiet_swapExcept h, quiet_swapAllocator h1]; rfl
  unfold swap at h
  rw [if_neg hps] at h
  dsimp only at h
  have hn := hI.lt ha
  have hny := hI.lt ho
  obtain ⟨w1, an, o1, e1, hI1, hst1, hnv1, hal1, hy1, hr1, htake1, hkeep1⟩ :=
    newMove_ok hI hdef ho (fun _ => hso)
  rw [e1, bind_ok] at h
  have c1 := newMove_blocks hI ho e1
  obtain ⟨_, _, hfe⟩ := newMove_calls hI ho e1
  have ho1 : o1.base = none ∧ o1.shape = ty.defaultShape ∨ o1 = o := by
    by_cases ht : TakesNew ty o
    · left; rw [(htake1 ht).2.1]; exact ⟨rfl, rfl⟩
    · right; exact (hkeep1 ht).1
  have hx1 : ∃ a1, w1.vars x = some a1 ∧ (x ≠ y → a1 = a) ∧ (x = y → a1 = o1) := by
    by_cases hxy : x = y
    · exact ⟨o1, by rw [hxy]; exact hy1, fun h => absurd hxy h, fun _ => rfl⟩
    · refine ⟨a, ?_, fun _ => rfl, fun h => absurd h hxy⟩
      rw [hst1.vars x (by rintro (h | h); omega; exact hxy h)]; exact ha
  obtain ⟨a1, hax1, hane, haeq⟩ := hx1
  have hpre2 : MoveOk ty o1 a1 := by
    by_cases hxy : x = y
    · rw [haeq hxy]
      refine ⟨?_, fun h => absurd rfl h⟩
      intro hb _ hd
      rcases ho1 with ⟨_, h⟩ | h
      · rw [h]; exact hself hxy hd
      · rw [h] at hb ⊢; exact (hso hb).1
    · rw [hane hxy]; exact MoveOk.of_src hsa
  obtain ⟨w2, o2, a2, e2, hI2, hst2, hnv2, hx2, hr2, htake2, hnull2, hkeep2⟩ :=
    moveAssignOp_ok hI1 hdef hy1 hax1 hpre2
  rw [e2, bind_ok] at h
  have c2 := moveAssign_blocks hI1 hy1 hax1 e2
  have hnn : w.nextVar ≠ y ∧ w.nextVar ≠ x := by omega
  have hn2 : w2.vars w.nextVar = some an := by
    rw [hst2.vars _ (by rintro (h | h); exact hnn.1 h; exact hnn.2 h)]; exact hr1.var
  replace h := ok_of_bind h
  obtain ⟨w3, e3, h⟩ := h
  have c3 := moveAssign_blocks hI2 hx2 hn2 e3
  have c4 := quiet_delete h
  have hxn : x ≠ w.nextVar := Ne.symm hnn.2
  have ho1alloc : o1.alloc = o.alloc := by
    by_cases ht : TakesNew ty o
    · rw [(htake1 ht).2.1]
    · rw [(hkeep1 ht).1]
  have ha2 : (x = y ∨ TakesAssign ty o1 a1 → a2.base = o1.base ∧ a2.shape = o1.shape) ∧
      (¬ (x = y ∨ TakesAssign ty o1 a1) → a2.base = a1.base ∧ (a1.base ≠ none → a2.shape = a1.shape)) ∧
      (ty.propagateMove = false → a2.alloc.arena = a.alloc.arena ∧ a2.alloc.allocated = a.alloc.allocated) := by
    by_cases hxy : x = y
    · subst hxy
      rw [haeq rfl] at hax1 hnull2
      have hao : a = o := by rw [ha] at ho; simpa using ho
      rw [hao, ← ho1alloc]
      have : a2 = o1 := by
        by_cases hb : o1.base = none
        · have := (hnull2 hb hb).1
          have h3 := hr2.var
          rw [hx2] at h3
          simp only [Option.some.injEq] at h3
          rw [h3, this]
        · unfold moveAssignOp at e2
          rw [get_ok hax1, bind_ok, bind_ok, if_pos rfl, if_pos (by rw [Option.isSome_iff_ne_none]; exact hb)] at e2
          have := (ok_of_assert e2).2
          subst this
          rw [hax1] at hx2
          simpa using hx2.symm
      rw [this]
      exact ⟨fun _ => ⟨rfl, rfl⟩, fun h => absurd (Or.inl rfl) h, fun _ => ⟨rfl, rfl⟩⟩
    · have haa := hane hxy
      subst haa
      by_cases hbb : o1.base = a1.base
      · have hb : o1.base = none := by
          by_contra hc
          exact hxy (hI1.base_inj hy1 hax1 hbb hc).symm
        have hbn : a1.base = none := hbb ▸ hb
        rw [(hnull2 hb hbn).2.1 (Ne.symm hxy)]
        exact ⟨fun _ => ⟨hbb.symm, rfl⟩, fun _ => ⟨rfl, fun h => absurd hbn h⟩, fun _ => ⟨rfl, rfl⟩⟩
      · by_cases ht : TakesAssign ty o1 a1
        · rw [(htake2 hbb ht).2.1]
          refine ⟨fun _ => ⟨rfl, rfl⟩, fun h => absurd (Or.inr ht) h, fun hpm => ?_⟩
          rcases ht with ht | ht
          · rw [hpm] at ht; simp at ht
          · exact ⟨ht.2.2, ht.2.1.symm⟩
        · rw [(hkeep2 hbb ht).1]
          refine ⟨fun h => ?_, fun _ => ⟨rfl, fun _ => rfl⟩, fun _ => ⟨rfl, rfl⟩⟩
          rcases h with h | h
          exacts [absurd h hxy, absurd h ht]
  obtain ⟨ha2take, ha2keep, ha2arena⟩ := ha2
  have ha1alloc : a.alloc = a1.alloc := by
    by_cases hxy : x = y
    · have hao : a = o := by rw [hxy, ho] at ha; simpa using ha.symm
      rw [haeq hxy, ho1alloc, hao]
    · rw [hane hxy]
  have hxalloc : x = y → a.alloc = o.alloc := by
    intro hxy
    rw [hxy, ho] at ha
    simp only [Option.some.injEq] at ha
    rw [ha]
  have hnot : ¬ (x = w.nextVar) := hxn
  rw [c4, c3, c2, c1, Nat.add_assoc, Nat.add_assoc]
  refine congrArg (w.nextBlock + ·) ?_
  by_cases hpm : ty.propagateMove = true
  · simp [hpm, TakesNew, TakesAssign]
  have hpm' : ty.propagateMove = false := by simpa using hpm
  have t1 : TakesNew ty o ↔ o.alloc.allocated = false ∧ o.alloc.arena = ty.defaultAlloc := by
    unfold TakesNew; rw [eq_comm (a := ty.defaultAlloc)]; simp [hpm]
  have t2 : TakesAssign ty o1 a1 ↔
      o.alloc.allocated = false ∧ a.alloc.allocated = false ∧ o.alloc.arena = a.alloc.arena := by
    unfold TakesAssign; rw [ho1alloc, ← ha1alloc]; simp [hpm]
  have t3 : TakesAssign ty a2 an ↔
      a.alloc.allocated = false ∧ an.alloc.allocated = false ∧ a.alloc.arena = ty.defaultAlloc := by
    unfold TakesAssign
    rw [hal1]
    unfold allocatorForMove
    rw [if_neg hpm, (ha2arena hpm').1, (ha2arena hpm').2]; simp [hpm]
  have hgn := hI1.good _ _ hr1.var
  have hgo := hI.good _ _ ho
  have hbuf : ∀ {w : World V} {c : Arr}, Good ty w c → (c.buffer = none ↔ c.base = none) := by
    intro w c hg
    rcases hg.own with h | ⟨b, blk, hh, _⟩
    · simp [h.1.buffer, h.1.base]
    · simp [hh.buffer, hh.base]
  have n1 : TakesNew ty o → an.alloc.allocated = false := fun ht => by rw [(htake1 ht).1]
  have n2 : o.alloc.allocated = true → an.alloc.allocated = true := by
    intro hal
    have hob : o.buffer ≠ none := by
      intro h
      rcases hgo.own with h | ⟨b, blk, hh, _⟩
      · rw [h.1.idle] at hal; simp at hal
      · rw [hh.buffer] at h; simp at h
    have hf := hgo.fits hob
    have hsh : an.shape = o.shape := hr1.shape.resolve_right fun h => hob ((hbuf hgo).2 h.1)
    have hnt : ¬ TakesNew ty o := by rw [t1, hal]; simp
    have hab : an.base ≠ none := by
      intro hb
      have := hfe hnt an hr1.var hb
      rw [hsh] at this
      omega
    have hf2 := hgn.fits fun h => hab ((hbuf hgn).1 h)
    rw [hf2.2, hsh, ← hf.2, hal]
  by_cases hheap : OnHeap ty a ∧ OnHeap ty o
  · obtain ⟨h2, h1⟩ := hheap
    have m1 := t1.2 h1
    have m3 := t2.2 ⟨h1.1, h2.1, h1.2.trans h2.2.symm⟩
    have m4 := t3.2 ⟨h2.1, n1 m1, h2.2⟩
    rw [if_pos (Or.inr (Or.inr ⟨h2, h1⟩))]
    simp [m1, m3, m4]
  obtain ⟨hta, hto⟩ := ((hset.resolve_left hps).resolve_left hpm).resolve_left hheap
  -- the temporary has the same shape, and memory if `o` has
  have hanb : blocksOf an = blocksOf o := by
    by_cases ht : TakesNew ty o
    · rw [(htake1 ht).1]; rfl
    · rw [(newMove_var hI ho ht e1 hr1.var).2]; exact hto.symm
  have hans : o.base ≠ none → an.shape = o.shape := fun hb => hr1.shape.resolve_right fun h => hb h.1
  have hant : Settled an := by
    by_cases ht : TakesNew ty o
    · rw [(htake1 ht).1]; exact hto
    · unfold Settled
      rw [(newMove_var hI ho ht e1 hr1.var).2, (newMove_var hI ho ht e1 hr1.var).1, blocksFor_resolve]
  have hbase : ∀ {c : Arr}, blocksOf c = 0 ↔ c.base = none := by
    intro c
    refine ⟨fun h => ?_, blocksOf_null⟩
    by_contra hb
    rw [blocksOf_some hb] at h
    simp at h
  have n3 : o.alloc.allocated = false → an.alloc.allocated = false := by
    intro hal
    by_cases hab : an.buffer = none
    · rcases hgn.own with h | ⟨b, blk, hh, _⟩
      · exact h.1.idle
      · rw [hh.buffer] at hab; simp at hab
    · have hob : o.base ≠ none := by
        intro hob
        rw [← hbase, ← hanb, hbase] at hob
        exact hab ((hbuf hgn).2 hob)
      have hf := hgo.fits fun h => hob ((hbuf hgo).1 h)
      have hf2 := hgn.fits hab
      rw [hf2.2, hans hob, ← hf.2, hal]
  -- the third step, if the temporary is moved element by element
  have third : (c : Arr) → Settled c → a2.base = c.base → (c.base ≠ none → a2.shape = c.shape) →
      blocksAssign a2 an = if c.shape = o.shape then 0 else blocksOf o := by
    intro c hc hb hs
    by_cases hcb : c.base = none
    · rw [blocksAssign_null (hb.trans hcb) hant, hanb]
      split
      · rename_i he
        rw [show blocksOf o = blocksFor o.shape from hto, ← he, ← show blocksOf c = blocksFor c.shape from hc]
        exact blocksOf_null hcb
      · rfl
    · have h2 : Settled a2 := by
        unfold Settled
        rw [hs hcb, ← show blocksOf c = blocksFor c.shape from hc]
        unfold blocksOf
        rw [hb]
      rw [blocksAssign_settled h2 hant, hs hcb, hanb]
      by_cases hob : o.base = none
      · rw [blocksOf_null hob, ite_self, ite_self]
      · rw [hans hob]
  have hbf : blocksFor o.shape = blocksOf o := hto.symm
  have second : x ≠ y → ¬ TakesNew ty o → blocksAssign o1 a1 = if a.shape = o.shape then 0 else blocksOf a := by
    intro hxy hnt
    rw [hane hxy, (hkeep1 hnt).1, blocksAssign_settled hto hta]
    simp only [eq_comm]
  have keep : x ≠ y → ¬ TakesAssign ty o1 a1 → blocksAssign a2 an = if a.shape = o.shape then 0 else blocksOf o := by
    intro hxy ht
    have := ha2keep (by rintro (h | h); exacts [hxy h, ht h])
    rw [hane hxy] at this
    exact third a hta this.1 this.2
  simp only [hps, hpm, hnot, false_or, Bool.false_eq_true, hbf]
  by_cases h1 : OnHeap ty o
  · have m1 := t1.2 h1
    have m2 := n1 m1
    by_cases h2 : OnHeap ty a
    · have m3 := t2.2 ⟨h1.1, h2.1, h1.2.trans h2.2.symm⟩
      have m4 := t3.2 ⟨h2.1, m2, h2.2⟩
      simp [m1, m3, m4, h1, h2]
    · have hxy : x ≠ y := fun h => h2 (by unfold OnHeap; rw [hxalloc h]; exact h1)
      have m3 : ¬ TakesAssign ty o1 a1 := fun h => h2 ⟨(t2.1 h).2.1, (t2.1 h).2.2 ▸ h1.2⟩
      have m4 : ¬ TakesAssign ty a2 an := fun h => h2 ⟨(t3.1 h).1, (t3.1 h).2.2⟩
      have k1 : blocksAssign o1 a1 = blocksOf a := by
        rw [hane hxy]
        exact blocksAssign_null (by rw [(htake1 m1).2.1]) hta
      rw [if_pos m1, if_neg (c := y = x ∨ TakesAssign ty o1 a1) (by rintro (h | h); exacts [hxy h.symm, m3 h]), if_neg m4, k1, keep hxy m3,
        if_neg (c := OnHeap ty a ∧ OnHeap ty o) (fun h => h2 h.1), if_pos h1, Nat.zero_add]
  · have m1 : ¬ TakesNew ty o := fun h => h1 (t1.1 h)
    rw [if_neg m1, if_neg (c := OnHeap ty a ∧ OnHeap ty o) (fun h => h1 h.2), if_neg h1]
    by_cases h2 : OnHeap ty a
    · have hxy : x ≠ y := fun h => h1 (by unfold OnHeap; rw [← hxalloc h]; exact h2)
      have m3 : ¬ TakesAssign ty o1 a1 := fun h => h1 ⟨(t2.1 h).1, (t2.1 h).2.2.trans h2.2⟩
      rw [if_neg (c := y = x ∨ TakesAssign ty o1 a1) (by rintro (h | h); exacts [hxy h.symm, m3 h]), second hxy m1]
      rcases Bool.eq_false_or_eq_true o.alloc.allocated with h3 | h3
      · have m4 : ¬ TakesAssign ty a2 an := fun h => by
          have := (t3.1 h).2.1
          rw [n2 h3] at this
          simp at this
        rw [if_neg m4, keep hxy m3, if_neg (c := OnHeap ty a ∧ o.alloc.allocated = false) (by simp [h3]),
          if_neg (c := x = y ∨ _) (by simp [h3, hxy])]
        split <;> omega
      · have m4 := t3.2 ⟨h2.1, n3 h3, h2.2⟩
        rw [if_pos m4, if_pos (c := OnHeap ty a ∧ o.alloc.allocated = false) ⟨h2, h3⟩]
        omega
    · have m4 : ¬ TakesAssign ty a2 an := fun h => h2 ⟨(t3.1 h).1, (t3.1 h).2.2⟩
      rw [if_neg m4, if_neg (c := OnHeap ty a ∧ o.alloc.allocated = false) (fun h => h2 h.1)]
      have hoo : o1 = o := (hkeep1 m1).1
      by_cases h3 : x = y ∨ a.alloc.allocated = false ∧ o.alloc.allocated = false ∧ a.alloc.arena = o.alloc.arena
      · have ht : x = y ∨ TakesAssign ty o1 a1 := by
          rcases h3 with h | h
          exacts [Or.inl h, Or.inr (t2.2 ⟨h.2.1, h.1, h.2.2.symm⟩)]
        have := ha2take ht
        rw [hoo] at this
        rw [if_pos (c := y = x ∨ _) (by rcases ht with h | h; exacts [Or.inl h.symm, Or.inr h]), if_pos h3,
          third o hto this.1 (fun _ => this.2), if_pos (c := o.shape = o.shape) rfl]
        omega
      · have hxy : x ≠ y := fun h => h3 (Or.inl h)
        have m3 : ¬ TakesAssign ty o1 a1 := fun h => h3 (Or.inr ⟨(t2.1 h).2.1, (t2.1 h).1, (t2.1 h).2.2.symm⟩)
        rw [if_neg h3, if_neg (c := y = x ∨ TakesAssign ty o1 a1) (by rintro (h | h); exacts [hxy h.symm, m3 h]), second hxy m1, keep hxy m3]
        split <;> omega

/-- The allocations of every allowed statement. -/
theorem exec_blocks {ty : Types V} (hdef : TypesOk ty) {w w' : World V} (hI : Inv ty w) {c : Cmd V}
    (hc : Allowed ty w c) (hs : SwapSettled ty w c) (h : exec ty c w = .ok w') :
    w'.nextBlock = w.nextBlock + blocksBy ty w c := by
  cases c with
  | new => exact newShape_blocks h
  | newAlloc al => exact newShape_blocks h
  | newShape s => exact newShape_blocks h
  | newShapeAlloc s al => exact newShape_blocks h
  | newFill s v => exact newFill_blocks hI hdef h
  | newFillAlloc s v al => exact newFill_blocks hI hdef h
  | newCopy y =>
    obtain ⟨o, ho, _⟩ := with_iff.1 hc
    simp only [blocksBy, blocksBy.of, ho]
    exact newCopy_blocks hI hdef ho h
  | newCopyAlloc y al =>
    obtain ⟨o, ho, _⟩ := with_iff.1 hc
    simp only [blocksBy, blocksBy.of, ho]
    exact newCopyAlloc_blocks hI hdef ho h
  | newMove y =>
    obtain ⟨o, ho, _⟩ := with_iff.1 hc
    simp only [blocksBy, blocksBy.of, ho]
    exact newMove_blocks hI ho h
  | newMoveAlloc y al =>
    obtain ⟨o, ho, _⟩ := with_iff.1 hc
    simp only [blocksBy, blocksBy.of, ho]
    exact newMoveAlloc_blocks hI ho h
  | delete x => exact quiet_delete h
  | copyAssign x y =>
    obtain ⟨a, ha, h1⟩ := with_iff.1 hc
    obtain ⟨o, ho, _⟩ := with_iff.1 h1
    simp only [blocksBy, blocksBy.of, ha, ho]
    exact copyAssign_blocks hI hdef ha ho h
  | moveAssign x y =>
    obtain ⟨a, ha, h1⟩ := with_iff.1 hc
    obtain ⟨o, ho, hm⟩ := with_iff.1 h1
    simp only [blocksBy, blocksBy.of, ha, ho]
    exact moveAssign_blocks hI ha ho h
  | assignCopy x y =>
    obtain ⟨a, ha, h1⟩ := with_iff.1 hc
    obtain ⟨o, ho, _⟩ := with_iff.1 h1
    simp only [blocksBy, blocksBy.of, ha, ho]
    exact assign_blocks true ha ho (hI.good _ _ ha).shape.nonNeg (fun e hn => hI.base_inj ha ho e hn) h
  | assignMove x y =>
    obtain ⟨a, ha, h1⟩ := with_iff.1 hc
    obtain ⟨o, ho, _⟩ := with_iff.1 h1
    simp only [blocksBy, blocksBy.of, ha, ho]
    exact assign_blocks false ha ho (hI.good _ _ ha).shape.nonNeg (fun e hn => hI.base_inj ha ho e hn) h
  | assignFill x s v =>
    obtain ⟨a, ha, _⟩ := with_iff.1 hc
    simp only [blocksBy, blocksBy.of, ha]
    exact assignFill_blocks ha (hI.good _ _ ha).shape.nonNeg h
  | clear x =>
    obtain ⟨a, ha, _⟩ := with_iff.1 hc
    exact clear_blocks ha (hI.good _ _ ha).shape.nonNeg h
  | reshape x s =>
    obtain ⟨a, ha, hn, hs, hr⟩ := with_iff.1 hc
    simp only [blocksBy, blocksBy.of, ha]
    exact reshape_blocks hI ha hn hs hr h
  | swap x y =>
    obtain ⟨a, ha, h1⟩ := with_iff.1 hc
    obtain ⟨o, ho, hsa, hso, hself⟩ := with_iff.1 h1
    simp only [blocksBy, blocksBy.of, ha, ho]
    exact swap_blocks hI hdef ha ho hsa hso hself (hs a o ha ho) h
  | write x i v => exact (still_write h).blocks
  | makeCopy y s al =>
    obtain ⟨o, ho, hv⟩ := with_iff.1 hc
    exact makeFrom_blocks true ((makeFromArray_eq ho s al).symm.trans h)
  | makeCopyRef y src off s al => exact makeFrom_blocks true h
  | makeMove y s al =>
    obtain ⟨o, ho, hv⟩ := with_iff.1 hc
    exact makeFrom_blocks false ((makeFromArray_eq ho s al).symm.trans h)
  | makeMoveRef y src off s al => exact makeFrom_blocks false h
  | makeMoveRvalue y s al =>
    obtain ⟨o, ho, hs, hv⟩ := with_iff.1 hc
    simp only [blocksBy, blocksBy.of, ho]
    change makeMoveRvalue ty y s al w = _ at h
    unfold makeMoveRvalue at h
    rw [get_ok ho, bind_ok] at h
    have hyn : w.nextVar ≠ o.alloc.self := by have := hI.lt ho; rw [hI.self y o ho]; omega
    have hcond : (o.shape = s ∧ Allocator.eq ⟨al, w.nextVar, false⟩ o.alloc = true) ↔
        o.shape = s ∧ SameAlloc o al := by
      rw [Allocator.eq_iff hyn]; simp [SameAlloc]
    by_cases heq : o.shape = s ∧ SameAlloc o al
    · rw [if_pos (hcond.2 heq)] at h
      rw [if_pos heq]
      exact newCopy_blocks hI hdef ho h
    · rw [if_neg fun h => heq (hcond.1 h)] at h
      rw [if_neg heq]
      exact makeFrom_blocks false ((makeFromArray_eq ho s al).symm.trans h)
  | copyRef y src soff x dst doff => exact (still_assignRef true h).blocks
  | moveRef y src soff x dst doff => exact (still_assignRef false h).blocks
  | forEach x s off f => exact (still_forEachRef h).blocks
  | transform x s off f => exact (still_transformRef h).blocks

end Nda
