import Verif.Spec.ArrayMemory
import Verif.Lemmas.ArrayCallsExec
/-
The allocations of all statements.
-/
namespace Nda
open Spec

variable {V : Type}

theorem blocksFor_resolve (s : Shape) : blocksFor s.resolve = blocksFor s := by
  unfold blocksFor
  rw [show s.resolve.resolve = s.resolve from resolve_of_known (resolve_known s)]

theorem blocksOf_null {a : Arr} (h : a.base = none) : blocksOf a = 0 := by rw [blocksOf, if_pos h]

theorem blocksOf_some {a : Arr} (h : a.base ≠ none) : blocksOf a = 1 := by rw [blocksOf, if_neg h]

/-- Neither the number of allocations nor an array object changes. -/
def Still (w w' : World V) : Prop := (w'.nextBlock, w'.vars) = (w.nextBlock, w.vars)

theorem Still.blocks {w w' : World V} (h : Still w w') : w'.nextBlock = w.nextBlock := congrArg Prod.fst h

theorem Still.vars {w w' : World V} (h : Still w w') : w'.vars = w.vars := congrArg Prod.snd h

/-! ### Functions that do not allocate -/

theorem still_assert {ty : Types V} {b : Bool} {w w' : World V} (h : assert ty b w = .ok w') :
    Still w w' := by
  obtain ⟨_, rfl⟩ := ok_of_assert h; rfl

theorem still_constructAt {k : Call} {b : Nat} {o : Int} {v : V} {w w' : World V}
    (h : constructAt k b o v w = .ok w') : Still w w' := by
  replace h := ok_of_bind h
  obtain ⟨blk, _, h⟩ := h
  simp only [Except.ok.injEq] at h
  subst h; rfl

theorem still_destroyAt {b : Nat} {o : Int} {w w' : World V}
    (h : destroyAt b o w = .ok w') : Still w w' := by
  replace h := ok_of_bind h
  obtain ⟨blk, _, h⟩ := h
  split at h
  · simp at h
  · simp only [Except.ok.injEq] at h
    subst h; rfl

theorem still_assignAt {k : Call} {b : Nat} {o : Int} {v : V} {w w' : World V}
    (h : assignAt k b o v w = .ok w') : Still w w' := by
  replace h := ok_of_bind h
  obtain ⟨blk, _, h⟩ := h
  split at h
  · simp at h
  · simp only [Except.ok.injEq] at h
    subst h; rfl

theorem still_movedFromAt {ty : Types V} {b : Nat} {o : Int} {w w' : World V}
    (h : movedFromAt ty b o w = .ok w') : Still w w' := by
  replace h := ok_of_bind h
  obtain ⟨blk, _, h⟩ := h
  simp only [Except.ok.injEq] at h
  subst h; rfl

theorem still_copyConstructAt {bs bd : Nat} {p : Int × Int} {w w' : World V}
    (h : copyConstructAt bs bd p w = .ok w') : Still w w' := by
  replace h := ok_of_bind h
  obtain ⟨v, _, h⟩ := h
  exact still_constructAt h

theorem still_moveConstructAt {ty : Types V} {bs bd : Nat} {p : Int × Int} {w w' : World V}
    (h : moveConstructAt ty bs bd p w = .ok w') : Still w w' := by
  replace h := ok_of_bind h
  obtain ⟨v, _, h⟩ := h
  replace h := ok_of_bind h
  obtain ⟨w1, h1, h⟩ := h
  exact (still_constructAt h).trans (still_movedFromAt h1)

theorem still_moveAssignAt {ty : Types V} {bs bd : Nat} {p : Int × Int} {w w' : World V}
    (h : moveAssignAt ty bs bd p w = .ok w') : Still w w' := by
  replace h := ok_of_bind h
  obtain ⟨v, _, h⟩ := h
  replace h := ok_of_bind h
  obtain ⟨w1, h1, h⟩ := h
  exact (still_assignAt h).trans (still_movedFromAt h1)

theorem still_copyAssignAt {bs bd : Nat} {p : Int × Int} {w w' : World V}
    (h : copyAssignAt bs bd p w = .ok w') : Still w w' := by
  replace h := ok_of_bind h
  obtain ⟨v, _, h⟩ := h
  exact still_assignAt h

theorem still_replaceAt {b : Nat} {f : V → V} {o : Int} {w w' : World V}
    (h : replaceAt b f o w = .ok w') : Still w w' := by
  replace h := ok_of_bind h
  obtain ⟨v, _, h⟩ := h
  exact still_assignAt h

theorem still_foldlM {α : Type} {f : World V → α → Except Fault (World V)}
    (hf : ∀ w w' p, f w p = .ok w' → Still w w') (l : List α) {w w' : World V}
    (h : l.foldlM f w = .ok w') : Still w w' := by
  induction l generalizing w with
  | nil =>
    simp only [List.foldlM_nil, pure, Except.pure, Except.ok.injEq] at h
    subst h; rfl
  | cons a l ih =>
    rw [List.foldlM_cons] at h
    obtain ⟨w1, h1, h2⟩ := ok_of_bind h
    exact (ih h2).trans (hf _ _ _ h1)

theorem still_construct {ty : Types V} {x : Nat} {k : Call} {v : V} {w w' : World V}
    (h : construct ty x k v w = .ok w') : Still w w' := by
  unfold construct at h
  replace h := ok_of_bind h
  obtain ⟨a, _, h⟩ := h
  replace h := ok_of_bind h
  obtain ⟨w1, h1, h⟩ := h
  obtain ⟨_, rfl⟩ := ok_of_assert h1
  split at h
  · exact still_assert h
  · exact still_foldlM (fun w w' p h => still_constructAt h) _ h

theorem still_destroy {ty : Types V} {x : Nat} {w w' : World V}
    (h : destroy ty x w = .ok w') : Still w w' := by
  unfold destroy at h
  replace h := ok_of_bind h
  obtain ⟨a, _, h⟩ := h
  replace h := ok_of_bind h
  obtain ⟨w1, h1, h⟩ := h
  obtain ⟨_, rfl⟩ := ok_of_assert h1
  split at h
  · exact still_assert h
  · exact still_foldlM (fun w w' p h => still_destroyAt h) _ h

theorem still_forEachPair {ty : Types V} {src dst : Shape} {p q : Ptr}
    {f : Nat → Nat → Int × Int → World V → Except Fault (World V)}
    (hf : ∀ bs bd p w w', f bs bd p w = .ok w' → Still w w') {w w' : World V}
    (h : forEachPair ty src p dst q f w = .ok w') : Still w w' := by
  unfold forEachPair at h
  split at h
  · exact still_foldlM (fun w w' p h => hf _ _ _ _ _ h) _ h
  · exact still_assert h

theorem still_transfer (keep : Bool) {ty : Types V} {x y : Nat} {w w' : World V}
    (h : transfer keep ty x y w = .ok w') : Still w w' := by
  cases keep
  · change moveConstruct ty x y w = _ at h
    unfold moveConstruct at h
    replace h := ok_of_bind h
    obtain ⟨a, _, h⟩ := h
    replace h := ok_of_bind h
    obtain ⟨o, _, h⟩ := h
    replace h := ok_of_bind h
    obtain ⟨w1, h1, h⟩ := h
    obtain ⟨_, rfl⟩ := ok_of_assert h1
    exact still_forEachPair (fun _ _ _ _ _ h => still_moveConstructAt h) h
  · change copyConstruct ty x y w = _ at h
    unfold copyConstruct at h
    replace h := ok_of_bind h
    obtain ⟨a, _, h⟩ := h
    replace h := ok_of_bind h
    obtain ⟨o, _, h⟩ := h
    replace h := ok_of_bind h
    obtain ⟨w1, h1, h⟩ := h
    obtain ⟨_, rfl⟩ := ok_of_assert h1
    exact still_forEachPair (fun _ _ _ _ _ h => still_copyConstructAt h) h

theorem still_free {w w' : World V} {b : Nat} {blk : Block V} (h : w.free b blk = .ok w') :
    Still w w' := by
  unfold World.free at h
  split at h
  · simp only [Except.ok.injEq] at h
    subst h; rfl
  · simp at h

theorem still_release {ty : Types V} {al al' : Allocator} {p : Ptr} {n : Nat} {w w' : World V}
    (h : release ty al p n w = .ok (w', al')) : Still w w' := by
  unfold release at h
  split at h
  · simp at h
  · split at h
    · simp at h
    · split at h
      · replace h := ok_of_bind h
        obtain ⟨w1, h1, h⟩ := h
        replace h := ok_of_bind h
        obtain ⟨w2, h2, h⟩ := h
        simp only [Except.ok.injEq, Prod.mk.injEq] at h
        obtain ⟨rfl, rfl⟩ := h
        exact (still_free h2).trans (still_assert h1)
      · split at h
        · simp at h
        · replace h := ok_of_bind h
          obtain ⟨w2, h2, h⟩ := h
          simp only [Except.ok.injEq, Prod.mk.injEq] at h
          obtain ⟨rfl, rfl⟩ := h
          exact still_free h2

theorem still_assignElements (keep : Bool) {ty : Types V} {src dst : Shape} {p q : Ptr} {w w' : World V}
    (h : assignElements keep ty src p dst q w = .ok w') : Still w w' := by
  unfold assignElements at h
  split at h
  · simp only [Except.ok.injEq] at h
    subst h; rfl
  · replace h := ok_of_bind h
    obtain ⟨w1, h1, h⟩ := h
    refine (still_forEachPair (fun bs bd p w w' h => ?_) h).trans (still_assert h1)
    cases keep
    · exact still_moveAssignAt h
    · exact still_copyAssignAt h

theorem quiet_deallocate {ty : Types V} {x : Nat} {w w' : World V}
    (h : deallocate ty x w = .ok w') : w'.nextBlock = w.nextBlock := by
  unfold deallocate at h
  replace h := ok_of_bind h
  obtain ⟨a, _, h⟩ := h
  split at h
  · replace h := ok_of_bind h
    obtain ⟨w1, h1, h⟩ := h
    replace h := ok_of_bind h
    obtain ⟨⟨w2, al⟩, h2, h⟩ := h
    simp only [Except.ok.injEq] at h
    subst h
    exact ((still_release h2).blocks).trans ((still_destroy h1).blocks)
  · simp only [Except.ok.injEq] at h
    subst h; rfl

theorem quiet_setShape {x : Nat} {s : Shape} {w w' : World V} (h : setShapeMember x s w = .ok w') :
    w'.nextBlock = w.nextBlock := by
  replace h := ok_of_bind h
  obtain ⟨a, _, h⟩ := h
  simp only [Except.ok.injEq] at h
  subst h; rfl

theorem quiet_swapExcept {x y : Nat} {w w' : World V} (h : swapExceptAllocator x y w = .ok w') :
    w'.nextBlock = w.nextBlock := by
  unfold swapExceptAllocator at h
  replace h := ok_of_bind h
  obtain ⟨a, _, h⟩ := h
  replace h := ok_of_bind h
  obtain ⟨o, _, h⟩ := h
  simp only [Except.ok.injEq] at h
  subst h; rfl

theorem quiet_swapAllocator {x y : Nat} {w w' : World V} (h : swapAllocator x y w = .ok w') :
    w'.nextBlock = w.nextBlock := by
  unfold swapAllocator at h
  replace h := ok_of_bind h
  obtain ⟨a, _, h⟩ := h
  replace h := ok_of_bind h
  obtain ⟨o, _, h⟩ := h
  simp only [Except.ok.injEq] at h
  subst h; rfl

theorem quiet_delete {ty : Types V} {x : Nat} {w w' : World V}
    (h : delete ty x w = .ok w') : w'.nextBlock = w.nextBlock := by
  replace h := ok_of_bind h
  obtain ⟨w1, h1, h⟩ := h
  simp only [Except.ok.injEq] at h
  subst h
  show w1.nextBlock = _
  exact quiet_deallocate h1

/-! ### Allocation -/

theorem allocate_blocks {ty : Types V} {x : Nat} {w w' : World V} {a : Arr}
    (ha : w.vars x = some a) (h : allocate ty x w = .ok w') :
    w'.nextBlock = w.nextBlock + blocksFor a.shape ∧
      ∃ a', w'.vars x = some a' ∧ a'.shape = a.shape.resolve ∧ blocksOf a' = blocksFor a.shape := by
  unfold allocate at h
  rw [get_ok ha, bind_ok] at h
  replace h := ok_of_bind h
  obtain ⟨w1, h1, h⟩ := h
  obtain ⟨_, rfl⟩ := ok_of_assert h1
  dsimp only at h
  unfold blocksFor
  split at h
  · rename_i hf
    simp only [Except.ok.injEq] at h
    subst h
    rw [if_pos hf]
    exact ⟨rfl, _, by rw [setVar_vars, if_pos rfl], rfl, rfl⟩
  · rename_i hf
    replace h := ok_of_bind h
    obtain ⟨w2, h2, h⟩ := h
    obtain ⟨_, rfl⟩ := ok_of_check h2
    simp only [Except.ok.injEq] at h
    subst h
    rw [if_neg hf]
    exact ⟨rfl, _, by rw [setVar_vars, if_pos rfl], rfl, rfl⟩

theorem build_blocks (keep : Bool) {ty : Types V} {x y : Nat} {s : Shape} {w w' : World V} {a : Arr}
    (ha : w.vars x = some a)
    (h : (setShapeMember x s w >>= fun w => allocate ty x w >>= transfer keep ty x y) = .ok w') :
    w'.nextBlock = w.nextBlock + blocksFor s := by
  replace h := ok_of_bind h
  obtain ⟨w1, h1, h⟩ := h
  replace h := ok_of_bind h
  obtain ⟨w2, h2, h⟩ := h
  rw [(still_transfer keep h).blocks, (allocate_blocks (loggedVar_setShape ha h1).self h2).1, quiet_setShape h1]

theorem newShape_blocks {ty : Types V} {s : Shape} {al : Nat} {w w' : World V}
    (h : newShapeAlloc ty s al w = .ok w') : w'.nextBlock = w.nextBlock + blocksFor s := by
  unfold newShapeAlloc at h
  dsimp only at h
  replace h := ok_of_bind h
  obtain ⟨w1, h1, h⟩ := h
  rw [(still_construct h).blocks, (allocate_blocks (a := ⟨⟨al, w.nextVar, false⟩, none, 0, none, s⟩)
    (by simp [World.push, World.setVar]) h1).1]
  rfl

theorem newShape_var {ty : Types V} {s : Shape} {al : Nat} {w w' : World V}
    (h : newShapeAlloc ty s al w = .ok w') :
    ∃ a', w'.vars w.nextVar = some a' ∧ a'.shape = s.resolve ∧ blocksOf a' = blocksFor s := by
  unfold newShapeAlloc at h
  dsimp only at h
  replace h := ok_of_bind h
  obtain ⟨w1, h1, h⟩ := h
  obtain ⟨_, a', hv, hs, hb⟩ := allocate_blocks (a := ⟨⟨al, w.nextVar, false⟩, none, 0, none, s⟩)
    (by simp [World.push, World.setVar]) h1
  refine ⟨a', ?_, hs, hb⟩
  have : w'.vars = w1.vars := by
    unfold construct at h
    rw [get_ok hv, bind_ok] at h
    replace h := ok_of_bind h
    obtain ⟨w2, h2, h⟩ := h
    obtain ⟨_, rfl⟩ := ok_of_assert h2
    split at h
    · exact (logged_assert h).vars
    · exact (logged_foldlM (fun w w' p h => logged_constructAt h) _ h).vars
  rw [this]
  exact hv

theorem assign_blocks (keep : Bool) {ty : Types V} {x y : Nat} {w w' : World V} {a o : Arr}
    (ha : w.vars x = some a) (ho : w.vars y = some o) (hna : NonNeg a.shape)
    (hb : a.base = o.base → a.base ≠ none → x = y)
    (h : assignArr keep ty x y w = .ok w') :
    w'.nextBlock = w.nextBlock + if x = y then 0 else blocksAssign a o := by
  rw [assignArr_eq keep ha ho] at h
  by_cases hbb : a.base = o.base
  · rw [if_pos hbb] at h
    split at h
    · rename_i hs
      rw [if_pos (hb hbb (by simpa [Option.isSome_iff_ne_none] using hs))]
      exact (still_assert h).blocks
    · rename_i hs
      have hn : a.base = none := by simpa using hs
      replace h := ok_of_bind h
      obtain ⟨w1, h1, h⟩ := h
      rw [(still_assert h).blocks, quiet_setShape h1]
      have : blocksAssign a o = 0 := by rw [blocksAssign, if_pos ⟨hn, hbb.symm.trans hn⟩]
      rw [this, ite_self]; rfl
  · have hxy : x ≠ y := by
      rintro rfl
      rw [ha] at ho
      simp only [Option.some.injEq] at ho
      exact hbb (by rw [ho])
    rw [if_neg hbb] at h
    rw [if_neg hxy]
    unfold blocksAssign
    rw [if_neg (by rintro ⟨h1, h2⟩; exact hbb (h1.trans h2.symm))]
    by_cases hc : (a.base.isSome && decide (a.shape = o.shape)) = true
    · rw [if_pos hc] at h
      simp only [Bool.and_eq_true, decide_eq_true_eq, Option.isSome_iff_ne_none] at hc
      rw [if_pos hc]
      replace h := ok_of_bind h
      obtain ⟨w1, h1, h⟩ := h
      rw [(still_transfer keep h).blocks, (still_destroy h1).blocks]; rfl
    · rw [if_neg hc] at h
      simp only [Bool.and_eq_true, decide_eq_true_eq, Option.isSome_iff_ne_none] at hc
      rw [if_neg hc]
      replace h := ok_of_bind h
      obtain ⟨w1, h1, h⟩ := h
      obtain ⟨a1, l1, _⟩ := loggedVar_deallocate ha hna h1
      rw [build_blocks keep l1.self h, quiet_deallocate h1]

theorem assignFill_blocks {ty : Types V} {x : Nat} {s : Shape} {v : V} {w w' : World V} {a : Arr}
    (ha : w.vars x = some a) (hna : NonNeg a.shape) (h : assignFill ty x s v w = .ok w') :
    w'.nextBlock = w.nextBlock + if a.shape = s.resolve then 0 else blocksFor s := by
  unfold assignFill at h
  rw [get_ok ha, bind_ok] at h
  dsimp only at h
  split at h
  · rename_i hs
    replace h := ok_of_bind h
    obtain ⟨w1, h1, h⟩ := h
    rw [if_pos hs, (still_construct h).blocks, (still_destroy h1).blocks]; rfl
  · rename_i hs
    replace h := ok_of_bind h
    obtain ⟨w1, h1, h⟩ := h
    replace h := ok_of_bind h
    obtain ⟨w2, h2, h⟩ := h
    replace h := ok_of_bind h
    obtain ⟨w3, h3, h⟩ := h
    obtain ⟨a1, l1, _⟩ := loggedVar_deallocate ha hna h1
    rw [if_neg hs, (still_construct h).blocks, (allocate_blocks (loggedVar_setShape l1.self h2).self h3).1, quiet_setShape h2,
      quiet_deallocate h1]
    dsimp only
    rw [blocksFor_resolve]

theorem clear_blocks {ty : Types V} {w w' : World V} {x : Nat} {a : Arr}
    (ha : w.vars x = some a) (hna : NonNeg a.shape) (h : clear ty x w = .ok w') :
    w'.nextBlock = w.nextBlock + blocksFor ty.defaultShape := by
  replace h := ok_of_bind h
  obtain ⟨w1, h1, h⟩ := h
  replace h := ok_of_bind h
  obtain ⟨w2, h2, h⟩ := h
  replace h := ok_of_bind h
  obtain ⟨w3, h3, h⟩ := h
  obtain ⟨a1, l1, _⟩ := loggedVar_deallocate ha hna h1
  rw [(still_construct h).blocks, (allocate_blocks (loggedVar_setShape l1.self h2).self h3).1, quiet_setShape h2,
    quiet_deallocate h1]

/-! ### Moves -/

theorem moveAssign_blocks {ty : Types V} {x y : Nat} {w w' : World V} {a o : Arr} (hI : Inv ty w)
    (ha : w.vars x = some a) (ho : w.vars y = some o) (h : moveAssignOp ty x y w = .ok w') :
    w'.nextBlock = w.nextBlock + if x = y ∨ TakesAssign ty a o then 0 else blocksAssign a o := by
  unfold moveAssignOp at h
  rw [get_ok ha, bind_ok, get_ok ho, bind_ok] at h
  by_cases hbb : a.base = o.base
  · rw [if_pos hbb] at h
    have key : w'.nextBlock = w.nextBlock := by
      split at h
      · exact (still_assert h).blocks
      · dsimp only at h
        replace h := ok_of_bind h
        obtain ⟨w1, h1, h⟩ := h
        rw [(still_assert h).blocks]; rfl
    rw [key]
    split
    · rfl
    · rename_i hc
      rw [not_or] at hc
      have : a.base = none := by
        by_contra hn
        exact hc.1 (hI.base_inj ha ho hbb hn)
      rw [blocksAssign, if_pos ⟨this, hbb.symm.trans this⟩]; rfl
  · have hxy : x ≠ y := by
      rintro rfl
      rw [ha] at ho
      simp only [Option.some.injEq] at ho
      exact hbb (by rw [ho])
    rw [if_neg hbb] at h
    have hcond := Allocator.eq_iff (al := a.alloc) (al' := o.alloc) (by rw [hI.self x a ha, hI.self y o ho]; exact hxy)
    by_cases hpm : ty.propagateMove = true
    · rw [if_pos hpm] at h
      replace h := ok_of_bind h
      obtain ⟨w1, h1, h⟩ := h
      have ht : TakesAssign ty a o := Or.inl hpm
      rw [if_pos (Or.inr ht), quiet_swapExcept h, quiet_swapAllocator h1]; rfl
    · rw [if_neg hpm] at h
      by_cases he : a.alloc.eq o.alloc = true
      · rw [if_pos he] at h
        have ht : TakesAssign ty a o := Or.inr (hcond.1 he)
        rw [if_pos (Or.inr ht), quiet_swapExcept h]; rfl
      · rw [if_neg he] at h
        rw [if_neg (by rintro (h | h | h); exacts [hxy h, hpm h, he (hcond.2 h)])]
        have := assign_blocks false ha ho (hI.good x a ha).shape.nonNeg (fun e => absurd e hbb) h
        rwa [if_neg hxy] at this

theorem moveInto_blocks {ty : Types V} {w w' : World V} {y : Nat} {s : Shape} (al : Nat) (c : Prop) [Decidable c]
    (h : (if c then swapExceptAllocator w.nextVar y (w.push ⟨⟨al, w.nextVar, false⟩, none, 0, none, ty.defaultShape⟩)
        else setShapeMember w.nextVar s (w.push ⟨⟨al, w.nextVar, false⟩, none, 0, none, ty.defaultShape⟩) >>= fun w' =>
          allocate ty w.nextVar w' >>= transfer false ty w.nextVar y) = .ok w') :
    w'.nextBlock = w.nextBlock + if c then 0 else blocksFor s := by
  by_cases hc : c
  · rw [if_pos hc] at h ⊢
    rw [quiet_swapExcept h]; rfl
  · rw [if_neg hc] at h ⊢
    rw [build_blocks (a := ⟨⟨al, w.nextVar, false⟩, none, 0, none, ty.defaultShape⟩) false
      (by rw [push_vars, if_pos rfl]) h]; rfl

theorem newMove_blocks {ty : Types V} {w w' : World V} (hI : Inv ty w) {y : Nat} {o : Arr}
    (ho : w.vars y = some o) (h : newMove ty y w = .ok w') :
    w'.nextBlock = w.nextBlock + if TakesNew ty o then 0 else blocksFor o.shape := by
  have hyn : w.nextVar ≠ o.alloc.self := by have := hI.lt ho; rw [hI.self y o ho]; omega
  have hcond : (ty.propagateMove || Allocator.eq ⟨allocatorForMove ty o, w.nextVar, false⟩ o.alloc) = true ↔
      TakesNew ty o := by
    rw [Bool.or_eq_true, Allocator.eq_iff hyn]
    unfold TakesNew allocatorForMove
    cases ty.propagateMove <;> simp
  unfold newMove at h
  dsimp only at h
  rw [get_ok ho, bind_ok] at h
  have := moveInto_blocks (allocatorForMove ty o) _ h
  simp only [hcond] at this
  exact this

theorem newMoveAlloc_blocks {ty : Types V} {w w' : World V} (hI : Inv ty w) {y : Nat} {o : Arr} {al : Nat}
    (ho : w.vars y = some o) (h : newMoveAlloc ty y al w = .ok w') :
    w'.nextBlock = w.nextBlock + if SameAlloc o al then 0 else blocksFor o.shape := by
  have hyn : w.nextVar ≠ o.alloc.self := by have := hI.lt ho; rw [hI.self y o ho]; omega
  have hcond : Allocator.eq ⟨al, w.nextVar, false⟩ o.alloc = true ↔ SameAlloc o al := by
    rw [Allocator.eq_iff hyn]; simp [SameAlloc]
  unfold newMoveAlloc at h
  dsimp only at h
  rw [get_ok ho, bind_ok] at h
  have := moveInto_blocks al _ h
  simp only [hcond] at this
  exact this

/-- The shape of an array that owns memory needs memory. -/
theorem Good.blocks {ty : Types V} {w : World V} {a : Arr} (h : Good ty w a) (hb : a.base ≠ none) :
    blocksFor a.shape = 1 := by
  rcases h.own with ⟨hn, _⟩ | ⟨b, blk, hh, _⟩
  · exact absurd hn.base hb
  · have := h.fits (by rw [hh.buffer]; simp)
    rw [blocksFor, show a.shape.resolve = a.shape from resolve_of_known hh.known, if_pos this.1]

theorem newCopy_blocks {ty : Types V} {w w' : World V} (hI : Inv ty w) (hdef : TypesOk ty) {y : Nat} {o : Arr}
    (ho : w.vars y = some o) (h : newCopy ty y w = .ok w') :
    w'.nextBlock = w.nextBlock + blocksOf o := by
  have hyn : y ≠ w.nextVar := by have := hI.lt ho; omega
  unfold newCopy at h
  dsimp only at h
  rw [get_ok ho, bind_ok] at h
  have := assign_blocks true (x := w.nextVar) (y := y) (by rw [push_vars, if_pos rfl])
    (by rw [push_vars, if_neg hyn]; exact ho) hdef.shape.nonNeg (fun _ h => absurd rfl h) h
  rw [this, if_neg (Ne.symm hyn)]
  unfold blocksAssign
  by_cases hb : o.base = none
  · rw [if_pos ⟨rfl, hb⟩, blocksOf_null hb]; rfl
  · rw [if_neg (by simp [hb]), if_neg (by simp), (hI.good y o ho).blocks hb, blocksOf_some hb]; rfl

theorem newCopyAlloc_blocks {ty : Types V} {w w' : World V} (hI : Inv ty w) (hdef : TypesOk ty) {y : Nat} {o : Arr}
    {al : Nat} (ho : w.vars y = some o) (h : newCopyAlloc ty y al w = .ok w') :
    w'.nextBlock = w.nextBlock + (blocksFor ty.defaultShape +
      if blocksFor ty.defaultShape = 0 then blocksOf o
      else if ty.defaultShape.resolve = o.shape then 0 else blocksFor o.shape) := by
  have hyn : y ≠ w.nextVar := by have := hI.lt ho; omega
  obtain ⟨w1, a1, e1, hI1, hst1, _, hv1, hs1, _, hh1, _⟩ := newShapeAlloc_ok hI hdef.shape al
  unfold newCopyAlloc newAlloc at h
  dsimp only at h
  rw [e1, bind_ok] at h
  have ho1 : w1.vars y = some o := by rw [hst1.vars y hyn]; exact ho
  have := assign_blocks true hv1 ho1 (hI1.good _ _ hv1).shape.nonNeg
    (fun e hn => hI1.base_inj hv1 ho1 e hn) h
  rw [this, if_neg (Ne.symm hyn), newShape_blocks e1, Nat.add_assoc]
  obtain ⟨a2, hv2, hs2, hb2⟩ := newShape_var e1
  rw [hv1, Option.some.injEq] at hv2
  subst hv2
  rw [← hb2]
  congr 2
  unfold blocksAssign
  by_cases hb : a1.base = none
  · by_cases hbo : o.base = none
    · rw [if_pos ⟨hb, hbo⟩, blocksOf_null hb, if_pos rfl, blocksOf_null hbo]
    · rw [if_neg (by simp [hbo]), if_neg (by simp [hb]), blocksOf_null hb, if_pos rfl,
        (hI.good y o ho).blocks hbo, blocksOf_some hbo]
  · rw [if_neg (fun h => hb h.1), blocksOf_some hb, hs1]
    simp [hb]

theorem newFill_blocks {ty : Types V} {w w' : World V} (hI : Inv ty w) (hdef : TypesOk ty) {s : Shape}
    {v : V} {al : Nat} (h : newFillAlloc ty s v al w = .ok w') :
    w'.nextBlock = w.nextBlock + (blocksFor ty.defaultShape +
      if ty.defaultShape.resolve = s.resolve then 0 else blocksFor s) := by
  obtain ⟨w1, a1, e1, hI1, _, _, hv1, hs1, _, hh1, _⟩ := newShapeAlloc_ok hI hdef.shape al
  unfold newFillAlloc newAlloc at h
  dsimp only at h
  rw [e1, bind_ok] at h
  rw [assignFill_blocks hv1 (hI1.good _ _ hv1).shape.nonNeg h, newShape_blocks e1, hs1, Nat.add_assoc]

theorem copyAssign_blocks {ty : Types V} {x y : Nat} {w w' : World V} {a o : Arr} (hI : Inv ty w)
    (hdef : TypesOk ty) (ha : w.vars x = some a) (ho : w.vars y = some o) (h : copyAssignOp ty x y w = .ok w') :
    w'.nextBlock = w.nextBlock + if x = y then 0
      else if ty.propagateCopy = true ∧
        ¬ (a.alloc.allocated = false ∧ o.alloc.allocated = false ∧ a.alloc.arena = o.alloc.arena) then blocksOf o
      else blocksAssign a o := by
  have hna := (hI.good x a ha).shape.nonNeg
  by_cases hbb : a.base = o.base
  · have e : assignArr true ty x y w = .ok w' := by
      rw [← h]
      show assignCopy ty x y w = _
      unfold copyAssignOp assignCopy
      rw [get_ok ha, bind_ok, bind_ok, get_ok ho, bind_ok, bind_ok, if_pos hbb, if_pos hbb]
    rw [assign_blocks true ha ho hna (fun e hn => hI.base_inj ha ho e hn) e]
    split
    · rfl
    · rename_i hxy
      have hn : a.base = none := by
        by_contra hn
        exact hxy (hI.base_inj ha ho hbb hn)
      rw [blocksOf_null (hbb.symm.trans hn), blocksAssign, if_pos ⟨hn, hbb.symm.trans hn⟩]
      simp
  · have hxy : x ≠ y := by
      rintro rfl
      rw [ha] at ho
      simp only [Option.some.injEq] at ho
      exact hbb (by rw [ho])
    rw [if_neg hxy]
    have hcond := Allocator.eq_iff (al := a.alloc) (al' := o.alloc) (by rw [hI.self x a ha, hI.self y o ho]; exact hxy)
    unfold copyAssignOp at h
    rw [get_ok ha, bind_ok, get_ok ho, bind_ok, if_neg hbb] at h
    split at h
    · rename_i hp
      split at h
      · rename_i he
        have he' : ¬ (a.alloc.allocated = false ∧ o.alloc.allocated = false ∧ a.alloc.arena = o.alloc.arena) := by
          rw [← hcond]; simpa using he
        replace h := ok_of_bind h
        obtain ⟨w1, h1, h⟩ := h
        obtain ⟨a1, l1, hb1, hs1, _⟩ := loggedVar_deallocate ha hna h1
        beta_reduce at h
        rw [get_ok l1.self, bind_ok, bind_ok] at h
        have l2 := l1.trans (loggedVar_setVar w1 x (some { a1 with alloc := { a1.alloc with arena := o.alloc.arena } }))
        have := assign_blocks true l2.self (by rw [l2.other (Ne.symm hxy)]; exact ho)
          (by rcases hs1 with e | e <;> (dsimp only; rw [e]); exacts [hna, hdef.shape.nonNeg])
          (fun _ h => absurd hb1 h) h
        rw [this, if_neg hxy, if_pos ⟨hp, he'⟩]
        have hq : (w1.setVar x (some { a1 with alloc := { a1.alloc with arena := o.alloc.arena } })).nextBlock =
            w.nextBlock := by
          show w1.nextBlock = _
          exact quiet_deallocate h1
        rw [hq]
        unfold blocksAssign
        by_cases hbo : o.base = none
        · rw [if_pos ⟨hb1, hbo⟩, blocksOf_null hbo]
        · rw [if_neg (by simp [hbo]), if_neg (by simp [hb1]), (hI.good y o ho).blocks hbo, blocksOf_some hbo]
      · rename_i he
        have he' : a.alloc.allocated = false ∧ o.alloc.allocated = false ∧ a.alloc.arena = o.alloc.arena := by
          rw [← hcond]; simpa using he
        rw [bind_ok] at h
        beta_reduce at h
        rw [get_ok ha, bind_ok, bind_ok] at h
        have l2 := loggedVar_setVar w x (some { a with alloc := { a.alloc with arena := o.alloc.arena } })
        have := assign_blocks true l2.self (by rw [l2.other (Ne.symm hxy)]; exact ho) hna
          (fun e => absurd e hbb) h
        rw [this, if_neg hxy, if_neg (by rintro ⟨_, h⟩; exact h he')]
        rfl
    · rename_i hp
      rw [bind_ok] at h
      have := assign_blocks true ha ho hna (fun e => absurd e hbb) h
      rw [this, if_neg hxy, if_neg (by rintro ⟨h, _⟩; exact hp h)]

theorem reshape_blocks {ty : Types V} {w w' : World V} {x : Nat} {a : Arr} {s : Shape} (hI : Inv ty w)
    (ha : w.vars x = some a) (hnh : NotHollow a) (hs : ShapeOk ty s)
    (hpre : ReshapeOk ty a s) (h : reshape ty x s w = .ok w') :
    w'.nextBlock = w.nextBlock + if a.shape = s.resolve then 0
      else blocksFor s +
        if ty.propagateMove = true ∨ a.alloc.allocated = false ∧ a.alloc.arena = ty.defaultAlloc ∧
            ¬ (0 < s.resolve.flatExtent ∧ s.resolve.flatExtent ≤ ty.inlineSize) then 0
        else blocksFor s := by
  have hres : s.resolve.resolve = s.resolve := resolve_of_known (resolve_known s)
  unfold reshape at h
  rw [get_ok ha, bind_ok] at h
  dsimp only at h
  by_cases hsame : a.shape = s.resolve
  · rw [if_pos hsame, Except.ok.injEq] at h
    subst h
    rw [if_pos hsame]; rfl
  · rw [if_neg hsame] at h ⊢
    obtain ⟨w1, an, e1, hI1, hst1, hnv1, hv1, hsh1, hal1, hh1, hval1⟩ :=
      newShapeAlloc_ok hI hs.resolve ty.defaultAlloc
    rw [hres] at hsh1
    have hx := hI.lt ha
    have hxn : x ≠ w.nextVar := by omega
    have ha1 : w1.vars x = some a := by rw [hst1.vars x hxn]; exact ha
    unfold newShape at h
    rw [e1, bind_ok, get_ok hv1, bind_ok, get_ok ha1, bind_ok] at h
    have b1 := newShape_blocks e1
    rw [blocksFor_resolve] at b1
    obtain ⟨an', hvn, _, hbn⟩ := newShape_var e1
    rw [hv1, Option.some.injEq] at hvn
    subst hvn
    rw [blocksFor_resolve] at hbn
    have hgn := hI1.good _ _ hv1
    obtain ⟨w2, e2, hI2, hst2, hv2, hnv2, _, _⟩ := reshape_move (s := s.resolve) hI1 hxn ha1 hv1 hsh1
      (by
        intro hb hd
        apply hpre _ hd
        rcases hb with hb | hb
        · exact Or.inl hb
        · right
          have := hh1 hb
          rw [hsh1, resolve_pos] at this
          exact this) hnh hh1
    rw [e2, bind_ok] at h
    have b2 := (still_forEachPair (fun _ _ _ _ _ h => still_moveAssignAt h) e2).blocks
    have ha2 : w2.vars x = some a := by rw [hv2]; exact ha1
    have hn2 : w2.vars w.nextVar = some an := by rw [hv2]; exact hv1
    replace h := ok_of_bind h
    obtain ⟨w3, e3, h⟩ := h
    have b3 := moveAssign_blocks hI2 ha2 hn2 e3
    rw [quiet_delete h, b3, b2, b1, Nat.add_assoc]
    congr 2
    -- the condition
    have hcond : TakesAssign ty a an ↔ (ty.propagateMove = true ∨ a.alloc.allocated = false ∧
        a.alloc.arena = ty.defaultAlloc ∧ ¬ (0 < s.resolve.flatExtent ∧ s.resolve.flatExtent ≤ ty.inlineSize)) := by
      have hfit : an.alloc.allocated = decide (0 < s.resolve.flatExtent ∧ s.resolve.flatExtent ≤ ty.inlineSize) := by
        by_cases hb : an.base = none
        · rw [blocksOf_null hb, blocksFor] at hbn
          have h0 : ¬ 0 < s.resolve.flatExtent := fun h => by rw [if_pos h] at hbn; simp at hbn
          rw [(hgn.null hb).idle]
          simp only [h0, false_and, decide_false]
        · have := hgn.fits (fun hc => by
            obtain ⟨p, hp⟩ := Option.ne_none_iff_exists'.1 hb
            rw [hgn.base_block hp] at hc; simp at hc)
          rw [hsh1] at this
          rw [this.2]
          simp [this.1]
      unfold TakesAssign
      rw [hal1, hfit, decide_eq_false_iff_not]
      constructor
      · rintro (h | ⟨h1, h2, h3⟩)
        exacts [Or.inl h, Or.inr ⟨h1, h3, h2⟩]
      · rintro (h | ⟨h1, h2, h3⟩)
        exacts [Or.inl h, Or.inr ⟨h1, h3, h2⟩]
    by_cases ht : TakesAssign ty a an
    · rw [if_pos (Or.inr ht), if_pos (hcond.1 ht)]
    · rw [if_neg (by rw [not_or]; exact ⟨hxn, ht⟩), if_neg fun h => ht (hcond.2 h)]
      unfold blocksAssign
      rw [hsh1, blocksFor_resolve]
      by_cases hb : a.base = none ∧ an.base = none
      · rw [if_pos hb, ← hbn, blocksOf_null hb.2]
      · rw [if_neg hb, if_neg fun h => hsame h.2]

theorem makeFrom_blocks (keep : Bool) {ty : Types V} {w w' : World V} {y : Nat} {src : Shape} {off : Int}
    {s : Shape} {al : Nat} (h : makeFrom keep ty y src off s al w = .ok w') :
    w'.nextBlock = w.nextBlock + blocksFor s := by
  unfold makeFrom at h
  replace h := ok_of_bind h
  obtain ⟨o, _, h⟩ := h
  replace h := ok_of_bind h
  obtain ⟨w1, h1, h⟩ := h
  replace h := ok_of_bind h
  obtain ⟨d, _, h⟩ := h
  rw [(still_assignElements keep h).blocks, newShape_blocks h1]

theorem still_assignRef (keep : Bool) {ty : Types V} {w w' : World V} {y x : Nat} {src dst : Shape}
    {soff doff : Int} (h : assignRef keep ty y src soff x dst doff w = .ok w') : Still w w' := by
  unfold assignRef at h
  replace h := ok_of_bind h
  obtain ⟨o, _, h⟩ := h
  replace h := ok_of_bind h
  obtain ⟨a, _, h⟩ := h
  exact still_assignElements keep h

theorem still_forEachRef {ty : Types V} {w w' : World V} {x : Nat} {s : Shape} {off : Int}
    {f : Nat → V → V} (h : forEachRef ty x s off f w = .ok w') : Still w w' := by
  unfold forEachRef at h
  replace h := ok_of_bind h
  obtain ⟨a, _, h⟩ := h
  split at h
  · exact still_assert h
  · exact still_foldlM (fun w w' p h => still_replaceAt h) _ h

theorem still_transformRef {w w' : World V} {x : Nat} {s : Shape} {off : Int}
    {f : Index → V} (h : transformRef x s off f w = .ok w') : Still w w' := by
  unfold transformRef at h
  replace h := ok_of_bind h
  obtain ⟨a, _, h⟩ := h
  split at h
  · simp at h
  · refine still_foldlM (fun w w' p h => ?_) _ h
    split at h
    · simp at h
    · exact still_assignAt h

theorem still_write {w w' : World V} {x : Nat} {i : Index} {v : V} (h : write x i v w = .ok w') :
    Still w w' := by
  replace h := ok_of_bind h
  obtain ⟨a, _, h⟩ := h
  split at h
  · simp at h
  · exact still_assignAt h

end Nda
