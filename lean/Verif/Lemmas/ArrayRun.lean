import Verif.Lemmas.ArrayViews
/-
Programs using arrays.
-/
namespace Nda
open Spec

variable {V : Type} [Hollow V]

theorem with_iff {w : World V} {x : Nat} {P : Arr → Prop} :
    With w x P ↔ ∃ a, w.vars x = some a ∧ P a := by
  unfold With
  split
  · rename_i h; simp [h]
  · rename_i a h; simp [h]

/-- Allowed statements succeed and only change what they are applied to. -/
theorem exec_ok {ty : Types V} (hdef : TypesOk ty) {w : World V} (hI : Inv ty w) {c : Cmd V}
    (hc : Allowed ty w c) :
    ∃ w', exec ty c w = .ok w' ∧ Inv ty w' ∧ Step (Changes w c) w w' ∧ w.nextVar ≤ w'.nextVar := by
  cases c with
  | new =>
    obtain ⟨w', _, e, h1, h2, h3, _⟩ := newShapeAlloc_ok hI hdef.shape ty.defaultAlloc
    exact ⟨w', e, h1, h2, by omega⟩
  | newAlloc al =>
    obtain ⟨w', _, e, h1, h2, h3, _⟩ := newShapeAlloc_ok hI hdef.shape al
    exact ⟨w', e, h1, h2, by omega⟩
  | newShape s =>
    obtain ⟨w', _, e, h1, h2, h3, _⟩ := newShapeAlloc_ok hI (s := s) hc ty.defaultAlloc
    exact ⟨w', e, h1, h2, by omega⟩
  | newShapeAlloc s al =>
    obtain ⟨w', _, e, h1, h2, h3, _⟩ := newShapeAlloc_ok hI (s := s) hc al
    exact ⟨w', e, h1, h2, by omega⟩
  | newFill s v =>
    obtain ⟨w', _, e, h1, h2, h3, _⟩ := newFillAlloc_ok hI hdef (s := s) hc v ty.defaultAlloc
    exact ⟨w', e, h1, h2, by omega⟩
  | newFillAlloc s v al =>
    obtain ⟨w', _, e, h1, h2, h3, _⟩ := newFillAlloc_ok hI hdef (s := s) hc v al
    exact ⟨w', e, h1, h2, by omega⟩
  | newCopy y =>
    obtain ⟨o, ho, hs⟩ := with_iff.1 hc
    obtain ⟨w', _, e, h1, h2, h3, _⟩ := newCopy_ok hI hdef ho hs
    exact ⟨w', e, h1, h2, by omega⟩
  | newCopyAlloc y al =>
    obtain ⟨o, ho, hs⟩ := with_iff.1 hc
    obtain ⟨w', _, e, h1, h2, h3, _⟩ := newCopyAlloc_ok hI hdef ho hs al
    exact ⟨w', e, h1, h2, by omega⟩
  | newMove y =>
    obtain ⟨o, ho, hs⟩ := with_iff.1 hc
    obtain ⟨w', _, _, e, h1, h2, h3, _⟩ := newMove_ok hI hdef ho fun h => hs.resolve_left h
    exact ⟨w', e, h1, h2, by omega⟩
  | newMoveAlloc y al =>
    obtain ⟨o, ho, hs⟩ := with_iff.1 hc
    obtain ⟨w', _, _, e, h1, h2, h3, _⟩ := newMoveAlloc_ok hI hdef ho al fun h => hs.resolve_left h
    exact ⟨w', e, h1, h2, by omega⟩
  | delete x =>
    obtain ⟨a, ha, _⟩ := with_iff.1 hc
    obtain ⟨w', e, h1, h2, _, h3⟩ := delete_ok hI ha
    exact ⟨w', e, h1, h2, by omega⟩
  | copyAssign x y =>
    obtain ⟨a, ha, h⟩ := with_iff.1 hc
    obtain ⟨o, ho, hs⟩ := with_iff.1 h
    obtain ⟨w', _, e, h1, h2, _, h3, _⟩ := copyAssignOp_ok hI hdef ha ho hs
    exact ⟨w', e, h1, h2, by omega⟩
  | moveAssign x y =>
    obtain ⟨a, ha, h⟩ := with_iff.1 hc
    obtain ⟨o, ho, hs⟩ := with_iff.1 h
    obtain ⟨w', _, _, e, h1, h2, h3, _⟩ := moveAssignOp_ok hI hdef ha ho hs
    exact ⟨w', e, h1, h2, by omega⟩
  | assignCopy x y =>
    obtain ⟨a, ha, h⟩ := with_iff.1 hc
    obtain ⟨o, ho, hs⟩ := with_iff.1 h
    obtain ⟨w', _, e, h1, h2, _, h3, _⟩ := assign_ok true hI ha ho hs
    exact ⟨w', e, h1, h2.mono (by intro z hz; simpa [Changes] using hz), by omega⟩
  | assignMove x y =>
    obtain ⟨a, ha, h⟩ := with_iff.1 hc
    obtain ⟨o, ho, hs⟩ := with_iff.1 h
    obtain ⟨w', _, e, h1, h2, _, h3, _⟩ := assign_ok false hI ha ho hs
    exact ⟨w', e, h1, h2.mono (by intro z hz; simpa [Changes] using hz), by omega⟩
  | assignFill x s v =>
    obtain ⟨a, ha, hn, hs⟩ := with_iff.1 hc
    obtain ⟨w', _, e, h1, h2, h3, _⟩ := assignFill_ok hI ha hn hs v
    exact ⟨w', e, h1, h2, by omega⟩
  | clear x =>
    obtain ⟨a, ha, _⟩ := with_iff.1 hc
    obtain ⟨w', _, e, h1, h2, h3, _⟩ := clear_ok hI hdef ha
    exact ⟨w', e, h1, h2, by omega⟩
  | reshape x s =>
    obtain ⟨a, ha, hn, hs, hr⟩ := with_iff.1 hc
    obtain ⟨w', _, e, h1, h2, h3, _⟩ := reshape_ok hI hdef ha hn hs hr
    exact ⟨w', e, h1, h2, h3⟩
  | swap x y =>
    obtain ⟨a, ha, h⟩ := with_iff.1 hc
    obtain ⟨o, ho, hs, hs', hself⟩ := with_iff.1 h
    obtain ⟨w', _, _, e, h1, h2, h3, _⟩ := swap_ok hI hdef ha ho hs hs' hself
    exact ⟨w', e, h1, h2, h3⟩
  | write x i v =>
    obtain ⟨a, ha, hb, hi⟩ := with_iff.1 hc
    obtain ⟨w', e, h1, h2, _, h3, _⟩ := write_ok hI ha hb hi v
    exact ⟨w', e, h1, h2, by omega⟩
  | makeCopy y s al =>
    obtain ⟨o, ho, hv⟩ := with_iff.1 hc
    obtain ⟨w', _, e, h⟩ := makeFrom_ok true al hI ho hv
    exact ⟨w', (makeFromArray_eq ho s al).trans e, h.inv, h.step.mono (by simp [Changes]), by rw [h.next]; omega⟩
  | makeCopyRef y src off s al =>
    obtain ⟨o, ho, hv⟩ := with_iff.1 hc
    obtain ⟨w', _, e, h⟩ := makeFrom_ok true al hI ho hv
    exact ⟨w', e, h.inv, h.step.mono (by simp [Changes]), by rw [h.next]; omega⟩
  | makeMove y s al =>
    obtain ⟨o, ho, hv⟩ := with_iff.1 hc
    obtain ⟨w', _, e, h⟩ := makeFrom_ok false al hI ho hv
    exact ⟨w', (makeFromArray_eq ho s al).trans e, h.inv, h.step.mono (by simp [Changes]), by rw [h.next]; omega⟩
  | makeMoveRef y src off s al =>
    obtain ⟨o, ho, hv⟩ := with_iff.1 hc
    obtain ⟨w', _, e, h⟩ := makeFrom_ok false al hI ho hv
    exact ⟨w', e, h.inv, h.step.mono (by simp [Changes]), by rw [h.next]; omega⟩
  | makeMoveRvalue y s al =>
    obtain ⟨o, ho, hs, hv⟩ := with_iff.1 hc
    show ∃ w', makeMoveRvalue ty y s al w = _ ∧ _
    unfold makeMoveRvalue
    rw [get_ok ho, bind_ok]
    have hyn : w.nextVar ≠ o.alloc.self := by have := hI.lt ho; rw [hI.self y o ho]; omega
    have hcond : (o.shape = s ∧ Allocator.eq ⟨al, w.nextVar, false⟩ o.alloc = true) ↔
        o.shape = s ∧ SameAlloc o al := by
      rw [Allocator.eq_iff hyn]; simp [SameAlloc]
    by_cases heq : o.shape = s ∧ SameAlloc o al
    · rw [if_pos (hcond.2 heq)]
      obtain ⟨w', _, e, h1, h2, h3, _⟩ := newCopy_ok hI hdef ho (hs heq)
      exact ⟨w', e, h1, h2.mono fun z hz => Or.inl hz, by omega⟩
    · rw [if_neg fun h => heq (hcond.1 h)]
      obtain ⟨w', _, e, h⟩ := makeFrom_ok false al hI ho (hv heq)
      exact ⟨w', (makeFromArray_eq ho s al).trans e, h.inv, h.step.mono (by simp [Changes]), by rw [h.next]; omega⟩
  | copyRef y src soff x dst doff =>
    obtain ⟨o, ho, h⟩ := with_iff.1 hc
    obtain ⟨a, ha, hv⟩ := with_iff.1 h
    obtain ⟨w', e, h1, h2, h3⟩ := assignRef_step true hI ho ha hv
    exact ⟨w', e, h1, h2.mono (by simp [Changes]), by omega⟩
  | moveRef y src soff x dst doff =>
    obtain ⟨o, ho, h⟩ := with_iff.1 hc
    obtain ⟨a, ha, hv⟩ := with_iff.1 h
    obtain ⟨w', e, h1, h2, h3⟩ := assignRef_step false hI ho ha hv
    exact ⟨w', e, h1, h2.mono (by simp [Changes]), by omega⟩
  | forEach x s off f =>
    obtain ⟨a, ha, hv⟩ := with_iff.1 hc
    obtain ⟨w', e, h1, h2, h3⟩ := forEachRef_step f hI ha hv
    exact ⟨w', e, h1, h2, by omega⟩
  | transform x s off f =>
    obtain ⟨a, ha, hv⟩ := with_iff.1 hc
    obtain ⟨w', e, h1, h2, h3⟩ := transformRef_step f hI ha hv
    exact ⟨w', e, h1, h2, by omega⟩

theorem execAll_cons (ty : Types V) (c : Cmd V) (p : List (Cmd V)) (w : World V) :
    execAll ty (c :: p) w = exec ty c w >>= execAll ty p := rfl

theorem execAll_ok {ty : Types V} (hdef : TypesOk ty) (p : List (Cmd V)) {w : World V}
    (hI : Inv ty w) (hp : AllowedRun ty p w) : ∃ w', execAll ty p w = .ok w' ∧ Inv ty w' := by
  induction p generalizing w with
  | nil => exact ⟨w, rfl, hI⟩
  | cons c p ih =>
    obtain ⟨hc, hp⟩ := hp
    obtain ⟨w1, e1, hI1, _⟩ := exec_ok hdef hI hc
    rw [e1] at hp
    rw [execAll_cons, e1, bind_ok]
    exact ih hI1 hp

/-- One more statement. -/
theorem Reachable.exec {ty : Types V} {w w' : World V} (hw : Reachable ty w) {c : Cmd V} (hc : Allowed ty w c)
    (e : exec ty c w = .ok w') : Reachable ty w' := by
  obtain ⟨p, hp, ep⟩ := hw
  have main : ∀ (p : List (Cmd V)) (v : World V), AllowedRun ty p v → execAll ty p v = .ok w →
      AllowedRun ty (p ++ [c]) v ∧ execAll ty (p ++ [c]) v = .ok w' := by
    intro p
    induction p with
    | nil =>
      intro v _ hv
      obtain rfl : v = w := by simpa [execAll, pure, Except.pure] using hv
      refine ⟨⟨hc, by rw [e]; trivial⟩, ?_⟩
      simp [execAll, e, bind, Except.bind, pure, Except.pure]
    | cons d p ih =>
      intro v hv hv'
      unfold execAll at hv'
      rw [List.foldlM_cons] at hv'
      rcases hd : Nda.exec ty d v with f | v'
      · rw [hd] at hv'; simp [bind, Except.bind] at hv'
      · rw [hd] at hv'
        have h2 := hv.2
        rw [hd] at h2
        obtain ⟨h3, h4⟩ := ih v' h2 hv'
        refine ⟨⟨hv.1, by rw [hd]; exact h3⟩, ?_⟩
        unfold execAll at h4 ⊢
        rw [List.cons_append, List.foldlM_cons, hd]
        exact h4
  exact ⟨p ++ [c], main p _ hp ep⟩

theorem Reachable.inv {ty : Types V} (hdef : TypesOk ty) {w : World V}
    (h : Reachable ty w) : Inv ty w := by
  obtain ⟨p, hp, e⟩ := h
  obtain ⟨w', e', hI⟩ := execAll_ok hdef p (inv_start ty) hp
  rw [e] at e'
  simp only [Except.ok.injEq] at e'
  rw [e']; exact hI

theorem cnt_eq_filter {s : Shape} {l : List Index} (hl : Enumerates s l) (o : Int) :
    cnt s o = (l.filter fun i => 0 - s.flatMin + offsetOf s i = o).length := by
  have hp : (boxList s).Perm l := by
    rw [List.perm_ext_iff_of_nodup (boxList_nodup s) hl.1]
    intro i
    rw [mem_boxList, hl.2]
  unfold cnt
  rw [(hp.map _).count_eq, List.count_eq_length_filter, List.filter_map, List.length_map]
  congr 1

theorem Inv.balanced {ty : Types V} {w : World V} (hI : Inv ty w) : Balanced w := by
  refine ⟨?_, fun x y a a' b hx hy => hI.disj x y a a' b 0 0 hx hy⟩
  intro b blk hb
  obtain ⟨x, a, hx, hbuf⟩ := hI.cover b (by rw [hb]; simp)
  rcases (hI.good x a hx).own with ⟨hn, _⟩ | ⟨b', blk', hh, hl⟩
  · rw [hn.buffer] at hbuf; simp at hbuf
  · have e1 : b' = b := by rw [hh.buffer] at hbuf; simpa using hbuf
    subst e1
    have e2 : blk' = blk := by have := hh.heap; rw [hb] at this; simpa using this.symm
    subst e2
    refine ⟨x, a, _, hx, hbuf, hh.base, by rw [hh.bufferSize, hh.size],
      by rw [hh.arena, ← hI.self x a hx]; rfl, ?_, ?_⟩
    · intro i hi
      rw [hh.size]; exact elem_range hi
    · intro l hen o
      rw [hl]; exact cnt_eq_filter hen o

theorem Inv.nothing_left {ty : Types V} {w : World V} (hI : Inv ty w) (h : ∀ x, w.vars x = none) (b : Nat) :
    w.heap b = none := by
  by_contra hb
  obtain ⟨x, a, hx, _⟩ := hI.cover b hb
  rw [h] at hx; simp at hx

/-- Without assertions, and if default constructed shapes are empty, nothing else is needed. -/
theorem Plain.allowed (hH : ¬ Hollow.ok V) {ty : Types V} {w : World V} (hd : ty.debug = false) (he : ¬ Pos ty.defaultShape)
    (hI : Inv ty w) {c : Cmd V} (hc : Plain ty w c) : Allowed ty w c := by
  have hnh : ∀ {x a}, w.vars x = some a → NotHollow a := by
    intro x a ha hb
    rcases (hI.good x a ha).own with ⟨_, h⟩ | ⟨b, blk, hh, _⟩
    · rcases h with h | h | h
      · rw [h]; exact he
      · exact h
      · exact absurd h hH
    · rw [hh.base] at hb; simp at hb
  have hsrc : ∀ {x a}, w.vars x = some a → SrcOk ty a := fun ha hb =>
    ⟨hnh ha hb, fun h => by rw [hd] at h; simp at h⟩
  cases c with
  | new => trivial
  | newAlloc => trivial
  | newShape => exact hc
  | newShapeAlloc => exact hc
  | newFill => exact hc
  | newFillAlloc => exact hc
  | newCopy y =>
    obtain ⟨o, ho, _⟩ := with_iff.1 hc
    exact with_iff.2 ⟨o, ho, hsrc ho⟩
  | newCopyAlloc y =>
    obtain ⟨o, ho, _⟩ := with_iff.1 hc
    exact with_iff.2 ⟨o, ho, hsrc ho⟩
  | newMove y =>
    obtain ⟨o, ho, _⟩ := with_iff.1 hc
    exact with_iff.2 ⟨o, ho, Or.inr (hsrc ho)⟩
  | newMoveAlloc y =>
    obtain ⟨o, ho, _⟩ := with_iff.1 hc
    exact with_iff.2 ⟨o, ho, Or.inr (hsrc ho)⟩
  | delete => exact hc
  | copyAssign x y =>
    obtain ⟨a, ha, h⟩ := with_iff.1 hc
    obtain ⟨o, ho, _⟩ := with_iff.1 h
    exact with_iff.2 ⟨a, ha, with_iff.2 ⟨o, ho, hsrc ho⟩⟩
  | moveAssign x y =>
    obtain ⟨a, ha, h⟩ := with_iff.1 hc
    obtain ⟨o, ho, _⟩ := with_iff.1 h
    exact with_iff.2 ⟨a, ha, with_iff.2 ⟨o, ho, MoveOk.of_src (hsrc ho)⟩⟩
  | assignCopy x y =>
    obtain ⟨a, ha, h⟩ := with_iff.1 hc
    obtain ⟨o, ho, _⟩ := with_iff.1 h
    exact with_iff.2 ⟨a, ha, with_iff.2 ⟨o, ho, hsrc ho⟩⟩
  | assignMove x y =>
    obtain ⟨a, ha, h⟩ := with_iff.1 hc
    obtain ⟨o, ho, _⟩ := with_iff.1 h
    exact with_iff.2 ⟨a, ha, with_iff.2 ⟨o, ho, hsrc ho⟩⟩
  | assignFill x s v =>
    obtain ⟨a, ha, h⟩ := with_iff.1 hc
    exact with_iff.2 ⟨a, ha, hnh ha, h⟩
  | clear => exact hc
  | reshape x s =>
    obtain ⟨a, ha, h⟩ := with_iff.1 hc
    exact with_iff.2 ⟨a, ha, hnh ha, h, fun _ hdb => by rw [hd] at hdb; simp at hdb⟩
  | swap x y =>
    obtain ⟨a, ha, h⟩ := with_iff.1 hc
    obtain ⟨o, ho, _⟩ := with_iff.1 h
    exact with_iff.2 ⟨a, ha, with_iff.2 ⟨o, ho, hsrc ha, hsrc ho, fun _ hdb => by rw [hd] at hdb; simp at hdb⟩⟩
  | write x i v =>
    obtain ⟨a, ha, h⟩ := with_iff.1 hc
    exact with_iff.2 ⟨a, ha, fun hb => hnh ha hb (pos_of_inBox h), h⟩
  | makeCopy => exact hc
  | makeCopyRef => exact hc
  | makeMove => exact hc
  | makeMoveRef => exact hc
  | copyRef => exact hc
  | moveRef => exact hc
  | forEach => exact hc
  | transform => exact hc
  | makeMoveRvalue y s al =>
    obtain ⟨o, ho, h⟩ := with_iff.1 hc
    exact with_iff.2 ⟨o, ho, fun _ => hsrc ho, h⟩

theorem PlainRun.allowed (hH : ¬ Hollow.ok V) {ty : Types V} (hdef : TypesOk ty) (hd : ty.debug = false)
    (he : ¬ Pos ty.defaultShape) (p : List (Cmd V)) {w : World V} (hI : Inv ty w) (hp : PlainRun ty p w) :
    AllowedRun ty p w := by
  induction p generalizing w with
  | nil => trivial
  | cons c p ih =>
    obtain ⟨hc, hp⟩ := hp
    have hc := hc.allowed hH hd he hI
    obtain ⟨w1, e1, hI1, _⟩ := exec_ok hdef hI hc
    refine ⟨hc, ?_⟩
    rw [e1] at hp ⊢
    exact ih hI1 hp

end Nda
