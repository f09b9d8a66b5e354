import Verif.Lemmas.Validity
import Verif.Lemmas.ArrayRun
import Verif.Spec.Validity
/-
Which statements give back the memory of an array, and which array has it afterwards.
-/
namespace Nda
open Spec

variable {V : Type}

theorem Bal.setVar' {w : World V} (h : Bal w) (x : Nat) (a : Option Arr) : Bal (w.setVar x a) := ⟨h.bound, h.eq⟩

theorem with_some {w : World V} {x : Nat} {a : Arr} (h : w.vars x = some a) (P : Arr → Prop) : With w x P ↔ P a := by
  unfold With; rw [h]

theorem with_exists {w : World V} {x : Nat} {P : Arr → Prop} (h : With w x P) : ∃ a, w.vars x = some a ∧ P a := by
  unfold With at h
  split at h
  · exact h.elim
  · exact ⟨_, by assumption, h⟩

theorem others_newShapeAlloc {ty : Types V} {s : Shape} {al : Nat} {w : World V} :
    Post (newShapeAlloc ty s al w) (Others (· = w.nextVar) w) := by
  unfold newShapeAlloc
  dsimp only
  refine post_mono (others_bind others_allocate fun _ _ => post_mono vars_construct fun _ h z _ => by rw [h]) fun _ h z hz => ?_
  rw [h z hz, push_vars, if_neg hz]

theorem others_makeFrom (keep : Bool) {ty : Types V} {y : Nat} {src : Shape} {off : Int} {s : Shape} {al : Nat} {w : World V} :
    Post (makeFrom keep ty y src off s al w) (Others (· = w.nextVar) w) := by
  unfold makeFrom
  dsimp only
  exact post_bind fun o _ => others_bind others_newShapeAlloc fun _ _ => post_bind fun d _ =>
    post_mono (vars_assignElements keep) fun _ h z _ => by rw [h]

theorem null_moveAssign {ty : Types V} {x y : Nat} {w : World V} {a o : Arr} (ha : w.vars x = some a)
    (ho : w.vars y = some o) (hb : a.base = none) (hb' : o.base = none) :
    Post (moveAssignOp ty x y w) fun w' => ∃ o', w'.vars y = some o' ∧ o'.base = none ∧ o'.alloc = o.alloc := by
  unfold moveAssignOp
  rw [get_ok ha, bind_ok, get_ok ho, bind_ok, if_pos (by rw [hb, hb']), if_neg (by simp [hb])]
  dsimp only
  refine post_bind fun _ _ => post_mono vars_assert fun _ h => ⟨_, (congrFun h _).trans (setVar_self _ _ _), hb', rfl⟩

/-! ### `operator=(const array&)` -/

theorem copyAssign_cases {ty : Types V} {x y : Nat} {w : World V} {a o : Arr} (ha : w.vars x = some a)
    (ho : w.vars y = some o) (hb : a.base ≠ o.base) :
    copyAssignOp ty x y w = if ty.propagateCopy = true then
        (if a.alloc.eq o.alloc = true then .ok w else deallocate ty x w) >>= fun w => w.get x >>= fun a =>
          assignArr true ty x y (w.setVar x (some { a with alloc := { a.alloc with arena := o.alloc.arena } }))
      else assignArr true ty x y w := by
  unfold copyAssignOp
  rw [get_ok ha, bind_ok, get_ok ho, bind_ok, if_neg hb]
  cases ty.propagateCopy
  · rfl
  · cases a.alloc.eq o.alloc
    · simp only [if_true, Bool.not_false, Bool.false_eq_true, if_false]
      rfl
    · simp only [if_true, Bool.not_true, Bool.false_eq_true, if_false]
      rfl

theorem lost_copyAssign {ty : Types V} {x y : Nat} {w : World V} {a o : Arr} {b : Nat} (hB : Bal w)
    (ha : w.vars x = some a) (ho : w.vars y = some o) (hxy : y ≠ x) (hb : a.base ≠ none) (hbuf : a.buffer = some (b, 0))
    (hne : a.base ≠ o.base) (hself : a.alloc.self ≠ o.alloc.self)
    (hs : o.shape ≠ a.shape ∨ ty.propagateCopy = true ∧
      ¬ (a.alloc.allocated = false ∧ o.alloc.allocated = false ∧ a.alloc.arena = o.alloc.arena)) :
    Post (copyAssignOp ty x y w) (Gone b) := by
  rw [copyAssign_cases ha ho hne]
  split
  · split
    · rename_i he
      rw [bind_ok, get_ok ha, bind_ok]
      rw [Allocator.eq_iff hself] at he
      refine lost_assign true (hB.setVar' _ _) (setVar_self _ _ _) (by rw [vars_setVar_other hxy]; exact ho) hb hbuf hne ?_
      rcases hs with h | ⟨_, h⟩
      · exact Ne.symm h
      · exact absurd he h
    · refine post_bind fun w1 h1 => post_bind fun a1 _ => ?_
      exact gone_assignCopy (((deallocate_gone hB ha hb hbuf) w1 h1).setVar _ _)
  · rename_i hp
    exact lost_assign true hB ha ho hb hbuf hne (Ne.symm (hs.resolve_right fun h => hp h.1))

theorem kept_copyAssign {ty : Types V} {x y : Nat} {w : World V} {a o : Arr}
    (ha : w.vars x = some a) (ho : w.vars y = some o) (hxy : y ≠ x) (hb : a.base ≠ none)
    (hne : a.base ≠ o.base) (hself : a.alloc.self ≠ o.alloc.self)
    (hs : ¬ (o.shape ≠ a.shape ∨ ty.propagateCopy = true ∧
      ¬ (a.alloc.allocated = false ∧ o.alloc.allocated = false ∧ a.alloc.arena = o.alloc.arena))) :
    Post (copyAssignOp ty x y w) fun w' => Has w' x a := by
  rw [not_or, not_not] at hs
  rw [copyAssign_cases ha ho hne]
  split
  · rename_i hp
    have he : a.alloc.eq o.alloc = true := by
      rw [Allocator.eq_iff hself]
      by_contra h
      exact hs.2 ⟨hp, h⟩
    rw [if_pos he, bind_ok, get_ok ha, bind_ok]
    refine post_mono (kept_assign true (setVar_self _ _ _) (by rw [vars_setVar_other hxy]; exact ho) hb (Or.inr hs.1.symm)) fun w' h => ?_
    exact ⟨_, (congrFun h _).trans (setVar_self _ _ _), rfl, rfl, rfl⟩
  · exact post_mono (kept_assign true ha ho hb (Or.inr hs.1.symm)) fun w' h => (has_self ha).of_vars (by rw [h])

/-! ### `reshape` and `swap` -/

theorem lost_reshape {ty : Types V} (hdef : TypesOk ty) {x : Nat} {s : Shape} {w : World V} {a : Arr} {b : Nat} (hI : Inv ty w)
    (hB : Bal w) (ha : w.vars x = some a) (hb : a.base ≠ none) (hbuf : a.buffer = some (b, 0)) (hs : a.shape ≠ s.resolve)
    (hok : ShapeOk ty s) : Post (reshape ty x s w) (Gone b) := by
  have hlt := hI.lt ha
  unfold reshape
  rw [get_ok ha, bind_ok]
  dsimp only
  rw [if_neg hs]
  refine post_bind fun w1 h1 => post_bind fun n hn => post_bind fun a1 ha1 => ?_
  obtain ⟨w1', n', e1, hI1, hst, hnv, hvn, hns, -⟩ := newShapeAlloc_ok hI hok.resolve ty.defaultAlloc
  have hw1 : w1 = w1' := by
    have h1' : newShapeAlloc ty s.resolve ty.defaultAlloc w = .ok w1 := h1
    rw [e1] at h1'
    simpa using h1'.symm
  subst hw1
  have hB1 : Bal w1 := post_newShapeAlloc hB w1 e1
  have hxn : x ≠ w.nextVar := by omega
  have ha1' : w1.vars x = some a := by rw [hst.vars x hxn]; exact ha
  refine post_bind fun w2 h2 => post_bind fun w3 h3 => ?_
  have hv2 : w2.vars = w1.vars := vars_forEachPair (fun _ _ _ _ _ h => (logged_moveAssignAt h).vars) w2 h2
  have hB2 : Bal w2 := post_forEachPair (fun _ _ _ _ hw => post_moveAssignAt hw) hB1 w2 h2
  have ha2 : w2.vars x = some a := by rw [hv2]; exact ha1'
  have hn2 : w2.vars w.nextVar = some n' := by rw [hv2]; exact hvn
  have hne : a.base ≠ n'.base := fun h => hxn (hI1.base_inj ha1' hvn h hb)
  have hself : a.alloc.self ≠ n'.alloc.self := by rw [hI1.self x a ha1', hI1.self _ n' hvn]; exact hxn
  have hns' : a.shape ≠ n'.shape := by rw [hns, resolve_of_known (resolve_known s)]; exact hs
  by_cases ht : TakesAssign ty a n'
  · obtain ⟨al1, al2, -, h5, -⟩ := taken_moveAssign hxn ha2 hn2 hself hne ht w3 h3
    exact delete_gone (post_moveAssignOp hB2 w3 h3) h5 hb hbuf
  · rw [untaken_moveAssign ha2 hn2 hself hne ht] at h3
    exact gone_delete (lost_assign false hB2 ha2 hn2 hb hbuf hne hns' w3 h3)

theorem kept_swap {ty : Types V} (hdef : TypesOk ty) {x y : Nat} {w : World V} {a o : Arr} (hI : Inv ty w)
    (ha : w.vars x = some a) (ho : w.vars y = some o) (hs : SwapsMemory ty a o) :
    Post (swap ty x y w) fun w' => (a.base ≠ none → Has w' y a) ∧ (o.base ≠ none → Has w' x o) := by
  have hsx := hI.self x a ha
  have hsy := hI.self y o ho
  have hltx := hI.lt ha
  have hlty := hI.lt ho
  unfold swap
  split
  · by_cases hxy : x = y
    · subst hxy
      rw [ha] at ho
      simp only [Option.some.injEq] at ho
      subst ho
      have : Post (swapAllocator x x w >>= fun w => swapExceptAllocator x x w) fun w' => Has w' x a := by
        unfold swapAllocator
        rw [get_ok ha, bind_ok, bind_ok, bind_ok]
        have h1 : ((w.setVar x (some { a with alloc := { a.alloc with arena := a.alloc.arena } })).setVar x
            (some { a with alloc := { a.alloc with arena := a.alloc.arena } })).vars x = some a := by rw [setVar_self]
        rw [swapExceptAllocator_ok h1 h1]
        exact post_ok ⟨a, setVar_self _ _ _, rfl, rfl, rfl⟩
      exact post_mono this fun _ h => ⟨fun _ => h, fun _ => h⟩
    · obtain ⟨w', e, hv, -⟩ := swapBoth_ok hxy ha ho
      intro r hr
      have : r = w' := by
        have := hr.symm.trans e
        simpa using this
      subst this
      exact ⟨fun _ => ⟨_, (hv y).trans (if_pos rfl), rfl, rfl, rfl⟩,
        fun _ => ⟨_, (hv x).trans ((if_neg hxy).trans (if_pos rfl)), rfl, rfl, rfl⟩⟩
  · rename_i hps
    have hs' := hs.resolve_left hps
    have htn : TakesNew ty o := by
      rcases hs' with h | h
      · exact Or.inl h
      · exact Or.inr ⟨h.2.1, h.2.2.2⟩
    dsimp only
    refine post_bind fun w1 h1 => post_bind fun w2 h2 => post_bind fun w3 h3 => ?_
    obtain ⟨w1', n, oN, e1, hI1, hst, hnv, -, hoN, hrec, htk, -⟩ := newMove_ok hI hdef ho fun h => absurd htn h
    have : w1 = w1' := by rw [h1] at e1; simpa using e1
    subst this
    obtain ⟨rfl, rfl, -⟩ := htk htn
    have hn1 := hrec.var
    have hB3 : ∀ z, z ≠ w.nextVar → ∀ a, Has w3 z a → Post (delete ty w.nextVar w3) fun w' => Has w' z a := fun z hz a h =>
      post_mono others_delete fun w' ho => h.of_vars (ho z hz)
    -- what `this` is when the temporary is moved into it
    have last : ∀ u, w2.vars x = some u → u.base = none → u.alloc.self = x →
        (ty.propagateMove = false → u.alloc = a.alloc) → w2.vars w.nextVar = some { o with alloc := ⟨o.alloc.arena, w.nextVar, false⟩ } →
        o.base ≠ none → Has w3 x o := by
      intro u hu hub hus hua hn2 hob
      have hx3 : TakesAssign ty u { o with alloc := ⟨o.alloc.arena, w.nextVar, false⟩ } := by
        cases hp : ty.propagateMove with
        | true => exact Or.inl hp
        | false =>
          rcases hs' with h | h
          · rw [hp] at h; simp at h
          · rw [TakesAssign, hua hp]; exact Or.inr ⟨h.1, rfl, h.2.2.1⟩
      obtain ⟨al1, al2, h4, -⟩ := taken_moveAssign (by omega) hu hn2 (by rw [hus]; exact (Nat.ne_of_lt hltx))
        (by rw [hub]; exact Ne.symm hob) hx3 w3 h3
      exact ⟨_, h4, rfl, rfl, rfl⟩
    by_cases hxy : x = y
    · subst hxy
      rw [ha] at ho
      simp only [Option.some.injEq] at ho
      subst ho
      obtain ⟨u, hu, hub, hua⟩ := null_moveAssign hoN hoN rfl rfl w2 h2
      have hn2 := (others_moveAssignOp w2 h2 w.nextVar (by simp; omega)).trans hn1
      have : a.base ≠ none → Post (delete ty w.nextVar w3) fun w' => Has w' x a := fun hb =>
        hB3 x (by omega) a (last u hu hub (by rw [hua]; exact hsx) (fun _ => hua) hn2 hb)
      exact fun r hr => ⟨fun hb => this hb r hr, fun hb => this hb r hr⟩
    · have ha1 : w1.vars x = some a := by rw [others_newMove w1 h1 x (by simp [hxy]; omega)]; exact ha
      have hn2 := (others_moveAssignOp w2 h2 w.nextVar (by simp; omega)).trans hn1
      have htA : TakesAssign ty (⟨o.alloc, none, 0, none, ty.defaultShape⟩ : Arr) a := by
        rcases hs' with h | h
        · exact Or.inl h
        · exact Or.inr ⟨h.2.1, h.1, h.2.2.1.symm⟩
      have hselfA : o.alloc.self ≠ a.alloc.self := by rw [hsx, hsy]; exact Ne.symm hxy
      refine fun r hr => ⟨fun hb => ?_, fun hb => ?_⟩
      · obtain ⟨al1, al2, h4, -⟩ := taken_moveAssign (Ne.symm hxy) hoN ha1 hselfA (Ne.symm hb) htA w2 h2
        have h5 : Has w2 y a := ⟨_, h4, rfl, rfl, rfl⟩
        have h6 : Has w3 y a := h5.of_vars (others_moveAssignOp w3 h3 y (by simp [Ne.symm hxy]; omega))
        exact hB3 y (by omega) a h6 r hr
      · refine hB3 x (by omega) o ?_ r hr
        by_cases hab : a.base = none
        · obtain ⟨u, hu, hub, hua⟩ := null_moveAssign hoN ha1 rfl hab w2 h2
          exact last u hu hub (by rw [hua]; exact hsx) (fun _ => hua) hn2 hb
        · obtain ⟨al1, al2, -, h5, h6, -, h7⟩ := taken_moveAssign (Ne.symm hxy) hoN ha1 hselfA (Ne.symm hab) htA w2 h2
          exact last _ h5 rfl (by rw [h7]; exact hsx) (fun hp => (h6 hp).2) hn2 hb

/-! ### All statements -/

theorem lost_exec {ty : Types V} (hdef : TypesOk ty) {x : Nat} {w : World V} {a : Arr} {b : Nat} (hI : Inv ty w) (hB : Bal w)
    (ha : w.vars x = some a) (hb : a.base ≠ none) (hbuf : a.buffer = some (b, 0)) {c : Cmd V} (hc : Allowed ty w c)
    (hl : Lost ty w x a c) : Post (exec ty c w) (Gone b) := by
  have pair : ∀ y o, w.vars y = some o → y ≠ x → a.base ≠ o.base ∧ a.alloc.self ≠ o.alloc.self := by
    intro y o ho hy
    exact ⟨fun h => hy (hI.base_inj ha ho h hb).symm, by rw [hI.self x a ha, hI.self y o ho]; exact Ne.symm hy⟩
  cases c with
  | delete y =>
    obtain rfl : y = x := hl
    exact delete_gone hB ha hb hbuf
  | clear y =>
    obtain rfl : y = x := hl
    exact post_bind fun w1 h1 => gone_bind (gone_setShape (deallocate_gone hB ha hb hbuf w1 h1)) fun _ h =>
      gone_bind (gone_allocate h) fun _ h => gone_construct h
  | assignFill y s v =>
    obtain ⟨rfl, hs⟩ := hl
    show Post (assignFill ty y s v w) _
    unfold assignFill
    rw [get_ok ha, bind_ok]
    dsimp only
    rw [if_neg hs]
    exact post_bind fun w1 h1 => gone_bind (gone_setShape (deallocate_gone hB ha hb hbuf w1 h1)) fun _ h =>
      gone_bind (gone_allocate h) fun _ h => gone_construct h
  | reshape y s =>
    obtain ⟨rfl, hs⟩ := hl
    exact lost_reshape hdef hI hB ha hb hbuf hs ((with_some ha _).1 hc).2.1
  | assignCopy y z =>
    obtain ⟨rfl, hz, h⟩ := hl
    obtain ⟨o, ho, hs⟩ := with_exists h
    exact lost_assign true hB ha ho hb hbuf (pair z o ho hz).1 (Ne.symm hs)
  | assignMove y z =>
    obtain ⟨rfl, hz, h⟩ := hl
    obtain ⟨o, ho, hs⟩ := with_exists h
    exact lost_assign false hB ha ho hb hbuf (pair z o ho hz).1 (Ne.symm hs)
  | copyAssign y z =>
    obtain ⟨rfl, hz, h⟩ := hl
    obtain ⟨o, ho, hs⟩ := with_exists h
    exact lost_copyAssign hB ha ho hz hb hbuf (pair z o ho hz).1 (pair z o ho hz).2 hs
  | moveAssign y z =>
    obtain ⟨rfl, hz, h⟩ := hl
    obtain ⟨o, ho, hs, ht⟩ := with_exists h
    show Post (moveAssignOp ty y z w) _
    rw [untaken_moveAssign ha ho (pair z o ho hz).2 (pair z o ho hz).1 ht]
    exact lost_assign false hB ha ho hb hbuf (pair z o ho hz).1 (Ne.symm hs)
  | _ => exact hl.elim

/-- A swap of `x` with another array exchanges memory. -/
def SwapOk (ty : Types V) (w : World V) (x : Nat) (c : Cmd V) : Prop :=
  ∀ y z, c = .swap y z → x = y ∨ x = z → With w y fun a => With w z fun o => SwapsMemory ty a o

theorem otherOf_none {y z x : Nat} (h1 : x ≠ y) (h2 : x ≠ z) : otherOf y z x = x := by
  unfold otherOf; rw [if_neg h1, if_neg h2]

theorem otherOf_left {y z : Nat} : otherOf y z y = z := by
  unfold otherOf; rw [if_pos rfl]

theorem otherOf_right {y z : Nat} : otherOf y z z = y := by
  unfold otherOf
  split
  · rename_i h; exact h
  · rw [if_pos rfl]

theorem kept_exec {ty : Types V} (hdef : TypesOk ty) {x : Nat} {w : World V} {a : Arr} (hI : Inv ty w)
    (ha : w.vars x = some a) (hb : a.base ≠ none) {c : Cmd V} (hc : Allowed ty w c)
    (hl : ¬ Lost ty w x a c) (hs : SwapOk ty w x c) {w' : World V} (e : exec ty c w = .ok w') :
    ∃ z, KeptBy ty w x a c z ∧ Has w' z a := by
  have hlt := hI.lt ha
  have hxn : x ≠ w.nextVar := by omega
  have pair : ∀ y o, w.vars y = some o → y ≠ x → a.base ≠ o.base ∧ a.alloc.self ≠ o.alloc.self := by
    intro y o ho hy
    exact ⟨fun h => hy (hI.base_inj ha ho h hb).symm, by rw [hI.self x a ha, hI.self y o ho]; exact Ne.symm hy⟩
  by_cases hch : Changes w c x
  swap
  · obtain ⟨w1, e1, -, hst, -⟩ := exec_ok hdef hI hc
    rw [e] at e1
    simp only [Except.ok.injEq] at e1
    subst e1
    refine ⟨x, ?_, (has_self ha).of_vars (hst.vars x hch)⟩
    cases c with
    | newMove y =>
      simp only [Changes, not_or] at hch
      exact ⟨fun h => absurd h.1.symm hch.2, fun _ => rfl⟩
    | newMoveAlloc y al =>
      simp only [Changes, not_or] at hch
      exact ⟨fun h => absurd h.1.symm hch.2, fun _ => rfl⟩
    | moveAssign y z =>
      simp only [Changes, not_or] at hch
      exact ⟨fun _ => (otherOf_none hch.1 hch.2).symm, fun _ => rfl⟩
    | swap y z =>
      simp only [Changes, not_or] at hch
      exact (otherOf_none hch.1 hch.2).symm
    | _ => rfl
  · cases c with
    | new => exact absurd hch hxn
    | newAlloc al => exact absurd hch hxn
    | newShape s => exact absurd hch hxn
    | newShapeAlloc s al => exact absurd hch hxn
    | newFill s v => exact absurd hch hxn
    | newFillAlloc s v al => exact absurd hch hxn
    | newCopy y => exact absurd hch hxn
    | newCopyAlloc y al => exact absurd hch hxn
    | newMove y =>
      obtain rfl : x = y := hch.resolve_left hxn
      have hc' := (with_some ha _).1 hc
      obtain ⟨w1, n, o', e1, -, -, -, -, ho', hrec, h1, h2⟩ := newMove_ok hI hdef ha fun h => hc'.resolve_left h
      have : w1 = w' := by have := e1.symm.trans e; simpa using this
      subst this
      by_cases ht : TakesNew ty a
      · obtain ⟨rfl, -⟩ := h1 ht
        exact ⟨w.nextVar, ⟨fun _ => rfl, fun h => absurd ⟨rfl, ht⟩ h⟩, _, hrec.var, rfl, rfl, rfl⟩
      · obtain ⟨rfl, -⟩ := h2 ht
        exact ⟨x, ⟨fun h => absurd h.2 ht, fun _ => rfl⟩, has_self ho'⟩
    | newMoveAlloc y al =>
      obtain rfl : x = y := hch.resolve_left hxn
      have hc' := (with_some ha _).1 hc
      obtain ⟨w1, n, o', e1, -, -, -, -, ho', hrec, h1, h2⟩ := newMoveAlloc_ok hI hdef ha al fun h => hc'.resolve_left h
      have : w1 = w' := by have := e1.symm.trans e; simpa using this
      subst this
      by_cases ht : SameAlloc a al
      · obtain ⟨rfl, -⟩ := h1 ht
        exact ⟨w.nextVar, ⟨fun _ => rfl, fun h => absurd ⟨rfl, ht⟩ h⟩, _, hrec.var, rfl, rfl, rfl⟩
      · obtain ⟨rfl, -⟩ := h2 ht
        exact ⟨x, ⟨fun h => absurd h.2 ht, fun _ => rfl⟩, has_self ho'⟩
    | delete y => exact absurd (Eq.symm hch) hl
    | clear y => exact absurd (Eq.symm hch) hl
    | assignFill y s v =>
      obtain rfl : x = y := hch
      refine ⟨x, rfl, (has_self ha).of_vars ?_⟩
      have hsh : a.shape = s.resolve := by
        by_contra h
        exact hl ⟨rfl, h⟩
      have : Post (assignFill ty x s v w) fun w' => w'.vars = w.vars := by
        unfold assignFill
        rw [get_ok ha, bind_ok]
        dsimp only
        rw [if_pos hsh]
        exact post_bind fun w1 h1 => post_mono vars_construct fun _ h => by rw [h, vars_destroy w1 h1]
      rw [this w' e]
    | reshape y s =>
      obtain rfl : x = y := hch
      refine ⟨x, rfl, (has_self ha).of_vars ?_⟩
      have hsh : a.shape = s.resolve := by
        by_contra h
        exact hl ⟨rfl, h⟩
      have : Post (reshape ty x s w) fun w' => w'.vars = w.vars := by
        unfold reshape
        rw [get_ok ha, bind_ok]
        dsimp only
        rw [if_pos hsh]
        exact post_ok rfl
      rw [this w' e]
    | assignCopy y z =>
      obtain rfl : x = y := hch
      obtain ⟨_, -, hc'⟩ := with_exists hc
      obtain ⟨o, ho, -⟩ := with_exists hc'
      refine ⟨x, rfl, (has_self ha).of_vars ?_⟩
      rw [kept_assign true ha ho hb (by
        by_cases hz : z = x
        · subst hz; rw [ha] at ho; simp only [Option.some.injEq] at ho; subst ho; exact Or.inl rfl
        · right
          by_contra h
          exact hl ⟨rfl, hz, (with_some ho _).2 (Ne.symm h)⟩) w' e]
    | assignMove y z =>
      by_cases hxy : x = y
      · subst hxy
        obtain ⟨_, -, hc'⟩ := with_exists hc
        obtain ⟨o, ho, -⟩ := with_exists hc'
        refine ⟨x, rfl, (has_self ha).of_vars ?_⟩
        rw [kept_assign false ha ho hb (by
          by_cases hz : z = x
          · subst hz; rw [ha] at ho; simp only [Option.some.injEq] at ho; subst ho; exact Or.inl rfl
          · right
            by_contra h
            exact hl ⟨rfl, hz, (with_some ho _).2 (Ne.symm h)⟩) w' e]
      · obtain ⟨u, hu, hc'⟩ := with_exists hc
        obtain ⟨o, ho, -⟩ := with_exists hc'
        exact ⟨x, rfl, (has_self ha).of_vars (others_assign false hu ho w' e x hxy)⟩
    | copyAssign y z =>
      obtain rfl : x = y := hch
      obtain ⟨_, -, hc'⟩ := with_exists hc
      obtain ⟨o, ho, -⟩ := with_exists hc'
      refine ⟨x, rfl, ?_⟩
      by_cases hz : z = x
      · subst hz
        have : Post (copyAssignOp ty z z w) fun w' => w'.vars = w.vars := by
          unfold copyAssignOp
          rw [get_ok ha, bind_ok, bind_ok, if_pos rfl, if_pos (by simpa [Option.isSome_iff_ne_none] using hb)]
          exact vars_assert
        exact (has_self ha).of_vars (by rw [this w' e])
      · exact kept_copyAssign ha ho hz hb (pair z o ho hz).1 (pair z o ho hz).2 (fun h => hl ⟨rfl, hz, (with_some ho _).2 h⟩) w' e
    | moveAssign y z =>
      obtain ⟨u, hu, hc'⟩ := with_exists hc
      obtain ⟨o, ho, -⟩ := with_exists hc'
      have hT : (With w y fun c => With w z fun o => TakesAssign ty c o) ↔ TakesAssign ty u o := by
        rw [with_some hu, with_some ho]
      by_cases hyz : y = z
      · subst hyz
        obtain rfl : x = y := by rcases hch with h | h <;> exact h
        refine ⟨x, ⟨fun _ => otherOf_left.symm, fun _ => rfl⟩, (has_self ha).of_vars ?_⟩
        rw [same_moveAssign ha ha rfl hb w' e]
      · have hne : u.base ≠ o.base := by
          rcases hch with rfl | rfl
          · rw [ha] at hu; simp only [Option.some.injEq] at hu; subst hu
            exact (pair z o ho (Ne.symm hyz)).1
          · rw [ha] at ho; simp only [Option.some.injEq] at ho; subst ho
            exact Ne.symm (pair y u hu hyz).1
        have hself : u.alloc.self ≠ o.alloc.self := by rw [hI.self y u hu, hI.self z o ho]; exact hyz
        by_cases ht : TakesAssign ty u o
        · obtain ⟨al1, al2, h1, h2, -⟩ := taken_moveAssign hyz hu ho hself hne ht w' e
          refine ⟨otherOf y z x, ⟨fun _ => rfl, fun h => absurd (hT.2 ht) h⟩, ?_⟩
          rcases hch with rfl | rfl
          · rw [ha] at hu; simp only [Option.some.injEq] at hu; subst hu
            rw [otherOf_left]
            exact ⟨_, h2, rfl, rfl, rfl⟩
          · rw [ha] at ho; simp only [Option.some.injEq] at ho; subst ho
            rw [otherOf_right]
            exact ⟨_, h1, rfl, rfl, rfl⟩
        · refine ⟨x, ⟨fun h => absurd (hT.1 h) ht, fun _ => rfl⟩, ?_⟩
          have e' : assignArr false ty y z w = .ok w' := by rw [← untaken_moveAssign hu ho hself hne ht]; exact e
          by_cases hxy : x = y
          · subst hxy
            rw [ha] at hu; simp only [Option.some.injEq] at hu; subst hu
            refine (has_self ha).of_vars ?_
            rw [kept_assign false ha ho hb (Or.inr (by
              by_contra h
              exact hl ⟨rfl, Ne.symm hyz, (with_some ho _).2 ⟨Ne.symm h, ht⟩⟩)) w' e']
          · exact (has_self ha).of_vars (others_assign false hu ho w' e' x hxy)
    | swap y z =>
      have h := hs y z rfl hch
      obtain ⟨u, hu, h⟩ := with_exists h
      obtain ⟨o, ho, h⟩ := with_exists h
      obtain ⟨h1, h2⟩ := kept_swap hdef hI hu ho h w' e
      refine ⟨otherOf y z x, rfl, ?_⟩
      rcases hch with rfl | rfl
      · rw [ha] at hu; simp only [Option.some.injEq] at hu; subst hu
        rw [otherOf_left]
        exact h1 hb
      · rw [ha] at ho; simp only [Option.some.injEq] at ho; subst ho
        rw [otherOf_right]
        exact h2 hb
    | write y i v =>
      refine ⟨x, rfl, (has_self ha).of_vars ?_⟩
      have : Post (write y i v w) fun w' => w'.vars = w.vars := by
        unfold write
        refine post_bind fun a _ => ?_
        split
        · exact post_error
        · exact fun _ h => (logged_assignAt h).vars
      rw [this w' e]
    | makeCopy y s al => exact absurd hch hxn
    | makeCopyRef y src off s al => exact absurd hch hxn
    | makeMove y s al =>
      have : Post (makeFromArray false ty y s al w) (Others (· = w.nextVar) w) := post_bind fun _ _ => others_makeFrom false
      exact ⟨x, rfl, (has_self ha).of_vars (this w' e x hxn)⟩
    | makeMoveRef y src off s al => exact ⟨x, rfl, (has_self ha).of_vars (others_makeFrom false w' e x hxn)⟩
    | makeMoveRvalue y s al =>
      have : Post (makeMoveRvalue ty y s al w) (Others (· = w.nextVar) w) := by
        obtain rfl : x = y := hch.resolve_left hxn
        unfold makeMoveRvalue
        refine post_bind fun _ _ => ?_
        split
        · unfold newCopy
          dsimp only
          rw [get_ok ha, bind_ok]
          refine post_mono (others_assign true (x := w.nextVar) (y := x) (o := a) (by rw [push_vars, if_pos rfl])
            (by rw [push_vars, if_neg hxn]; exact ha)) fun _ h z hz => ?_
          rw [h z hz, push_vars, if_neg hz]
        · exact post_bind fun _ _ => others_makeFrom false
      exact ⟨x, rfl, (has_self ha).of_vars (this w' e x hxn)⟩
    | copyRef y src soff z dst doff =>
      have : Post (assignRef true ty y src soff z dst doff w) fun w' => w'.vars = w.vars :=
        post_bind fun _ _ => post_bind fun _ _ => vars_assignElements true
      exact ⟨x, rfl, (has_self ha).of_vars (by rw [this w' e])⟩
    | moveRef y src soff z dst doff =>
      have : Post (assignRef false ty y src soff z dst doff w) fun w' => w'.vars = w.vars :=
        post_bind fun _ _ => post_bind fun _ _ => vars_assignElements false
      exact ⟨x, rfl, (has_self ha).of_vars (by rw [this w' e])⟩
    | forEach y s off f =>
      have : Post (forEachRef ty y s off f w) fun w' => w'.vars = w.vars := by
        unfold forEachRef
        refine post_bind fun a _ => ?_
        split
        · exact vars_assert
        · exact vars_foldlM (fun w p => post_bind fun _ _ _ h => (logged_assignAt h).vars) _ _
      exact ⟨x, rfl, (has_self ha).of_vars (by rw [this w' e])⟩
    | transform y s off f =>
      have : Post (transformRef y s off f w) fun w' => w'.vars = w.vars := by
        unfold transformRef
        refine post_bind fun a _ => ?_
        split
        · exact post_error
        · refine vars_foldlM (fun w p => ?_) _ _
          split
          · exact post_error
          · exact fun _ h => (logged_assignAt h).vars
      exact ⟨x, rfl, (has_self ha).of_vars (by rw [this w' e])⟩

end Nda
