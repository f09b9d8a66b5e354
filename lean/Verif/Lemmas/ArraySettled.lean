import Verif.Lemmas.ArrayMemoryExec
import Verif.Lemmas.ArrayBalance
/-
Arrays have memory if their shape needs memory.
-/
namespace Nda
open Spec

variable {V : Type}

/-- All arrays but `x` that need memory have memory. -/
def SettledBut (w : World V) (x : Nat) : Prop := ∀ y a, y ≠ x → w.vars y = some a → Settled a

theorem AllSettled.but {w : World V} (h : AllSettled w) (x : Nat) : SettledBut w x := fun y a _ => h y a

theorem Still.settled {w w' : World V} (h : Still w w') (hw : AllSettled w) : AllSettled w' := by
  unfold AllSettled; rw [h.vars]; exact hw

theorem Still.but {w w' : World V} (h : Still w w') {x : Nat} (hw : SettledBut w x) : SettledBut w' x := by
  unfold SettledBut; rw [h.vars]; exact hw

theorem LoggedVar.but {w w' : World V} {x : Nat} {a' : Option Arr} {l : List Call} (h : LoggedVar w w' x a' l)
    (hw : SettledBut w x) : SettledBut w' x := by
  intro y a hy ha
  rw [h.other hy] at ha
  exact hw y a hy ha

theorem settled_setVar {w : World V} {x : Nat} {a : Option Arr} (hw : SettledBut w x)
    (ha : ∀ b, a = some b → Settled b) : AllSettled (w.setVar x a) := by
  intro y b hb
  rw [setVar_vars] at hb
  split at hb
  · exact ha b hb
  · rename_i hy; exact hw y b hy hb

theorem settled_push_but {w : World V} (hw : AllSettled w) (a : Arr) : SettledBut (w.push a) w.nextVar := by
  intro y b hy hb
  rw [push_vars, if_neg hy] at hb
  exact hw y b hb

theorem settled_push {w : World V} (hw : AllSettled w) {a : Arr} (ha : Settled a) : AllSettled (w.push a) := by
  intro y b hb
  rw [push_vars] at hb
  split at hb
  · simp only [Option.some.injEq] at hb
    subst hb; exact ha
  · exact hw y b hb

theorem settled_allocate {ty : Types V} {x : Nat} {w w' : World V} {a : Arr} (ha : w.vars x = some a)
    (hw : SettledBut w x) (h : allocate ty x w = .ok w') : AllSettled w' := by
  obtain ⟨_, a', hv, hs, hb⟩ := allocate_blocks ha h
  obtain ⟨_, l, _⟩ := loggedVar_allocate ha h
  intro y c hc
  by_cases hy : y = x
  · subst hy
    rw [hv, Option.some.injEq] at hc
    subst hc
    unfold Settled
    rw [hb, hs, blocksFor_resolve]
  · exact l.but hw y c hy hc

theorem settled_setShapeAllocate {ty : Types V} {x : Nat} {s : Shape} {w w1 w' : World V} {a : Arr}
    (ha : w.vars x = some a) (hw : SettledBut w x) (h1 : setShapeMember x s w = .ok w1)
    (h : allocate ty x w1 = .ok w') : AllSettled w' :=
  settled_allocate (loggedVar_setShape ha h1).self ((loggedVar_setShape ha h1).but hw) h

theorem settled_build (keep : Bool) {ty : Types V} {x y : Nat} {s : Shape} {w w' : World V} {a : Arr}
    (ha : w.vars x = some a) (hw : SettledBut w x)
    (h : (setShapeMember x s w >>= fun w => allocate ty x w >>= transfer keep ty x y) = .ok w') :
    AllSettled w' := by
  replace h := ok_of_bind h
  obtain ⟨w1, h1, h⟩ := h
  replace h := ok_of_bind h
  obtain ⟨w2, h2, h⟩ := h
  exact (still_transfer keep h).settled (settled_setShapeAllocate ha hw h1 h2)

theorem settled_newShape {ty : Types V} {s : Shape} {al : Nat} {w w' : World V} (hw : AllSettled w)
    (h : newShapeAlloc ty s al w = .ok w') : AllSettled w' := by
  unfold newShapeAlloc at h
  dsimp only at h
  replace h := ok_of_bind h
  obtain ⟨w1, h1, h⟩ := h
  refine (still_construct h).settled (settled_allocate (a := ⟨⟨al, w.nextVar, false⟩, none, 0, none, s⟩) ?_ ?_ h1)
  · rw [push_vars, if_pos rfl]
  · exact settled_push_but hw _

theorem settled_assign (keep : Bool) {ty : Types V} {x y : Nat} {w w' : World V} {a o : Arr}
    (ha : w.vars x = some a) (ho : w.vars y = some o) (hna : NonNeg a.shape) (hw : SettledBut w x)
    (hwx : Settled a ∨ a.base = none ∧ x ≠ y)
    (h : assignArr keep ty x y w = .ok w') : AllSettled w' := by
  have hall : Settled a → AllSettled w := fun hs z c hc => by
    by_cases hz : z = x
    · subst hz; rw [ha, Option.some.injEq] at hc; subst hc; exact hs
    · exact hw z c hz hc
  rw [assignArr_eq keep ha ho] at h
  by_cases hbb : a.base = o.base
  · rw [if_pos hbb] at h
    split at h
    · rename_i hs
      refine (still_assert h).settled (hall (hwx.resolve_right fun hc => ?_))
      rw [hc.1] at hs; simp at hs
    · rename_i hs
      have hn : a.base = none := by simpa using hs
      replace h := ok_of_bind h
      obtain ⟨w1, h1, h⟩ := h
      unfold setShapeMember at h1
      rw [get_ok ha, bind_ok, Except.ok.injEq] at h1
      subst h1
      refine (still_assert h).settled (settled_setVar hw fun b hb => ?_)
      simp only [Option.some.injEq] at hb
      subst hb
      have hso : Settled o := by
        rcases hwx with h | h
        · exact hall h y o ho
        · exact hw y o (Ne.symm h.2) ho
      unfold Settled at hso ⊢
      rw [← hso, blocksOf_null (hbb.symm.trans hn)]
      exact blocksOf_null hn
  · rw [if_neg hbb] at h
    split at h
    · rename_i hc
      simp only [Bool.and_eq_true, decide_eq_true_eq, Option.isSome_iff_ne_none] at hc
      replace h := ok_of_bind h
      obtain ⟨w1, h1, h⟩ := h
      refine (still_transfer keep h).settled ((still_destroy h1).settled (hall (hwx.resolve_right fun hb => hc.1 hb.1)))
    · replace h := ok_of_bind h
      obtain ⟨w1, h1, h⟩ := h
      obtain ⟨a1, l1, _⟩ := loggedVar_deallocate ha hna h1
      exact settled_build keep l1.self (l1.but hw) h

theorem settled_assignFill {ty : Types V} {x : Nat} {s : Shape} {v : V} {w w' : World V} {a : Arr}
    (ha : w.vars x = some a) (hna : NonNeg a.shape) (hw : AllSettled w) (h : assignFill ty x s v w = .ok w') :
    AllSettled w' := by
  unfold assignFill at h
  rw [get_ok ha, bind_ok] at h
  dsimp only at h
  split at h
  · replace h := ok_of_bind h
    obtain ⟨w1, h1, h⟩ := h
    exact (still_construct h).settled ((still_destroy h1).settled hw)
  · replace h := ok_of_bind h
    obtain ⟨w1, h1, h⟩ := h
    replace h := ok_of_bind h
    obtain ⟨w2, h2, h⟩ := h
    replace h := ok_of_bind h
    obtain ⟨w3, h3, h⟩ := h
    obtain ⟨a1, l1, _⟩ := loggedVar_deallocate ha hna h1
    exact (still_construct h).settled (settled_setShapeAllocate l1.self (l1.but (hw.but x)) h2 h3)

theorem settled_clear {ty : Types V} {w w' : World V} {x : Nat} {a : Arr}
    (ha : w.vars x = some a) (hna : NonNeg a.shape) (hw : AllSettled w) (h : clear ty x w = .ok w') :
    AllSettled w' := by
  replace h := ok_of_bind h
  obtain ⟨w1, h1, h⟩ := h
  replace h := ok_of_bind h
  obtain ⟨w2, h2, h⟩ := h
  replace h := ok_of_bind h
  obtain ⟨w3, h3, h⟩ := h
  obtain ⟨a1, l1, _⟩ := loggedVar_deallocate ha hna h1
  exact (still_construct h).settled (settled_setShapeAllocate l1.self (l1.but (hw.but x)) h2 h3)

theorem settled_delete {ty : Types V} {w w' : World V} {x : Nat} {a : Arr}
    (ha : w.vars x = some a) (hna : NonNeg a.shape) (hw : AllSettled w) (h : delete ty x w = .ok w') :
    AllSettled w' := by
  replace h := ok_of_bind h
  obtain ⟨w1, h1, h⟩ := h
  obtain ⟨a1, l1, _⟩ := loggedVar_deallocate ha hna h1
  simp only [Except.ok.injEq] at h
  subst h
  exact settled_setVar (l1.but (hw.but x)) fun b hb => by simp at hb

theorem settled_swapExcept {x y : Nat} {w w' : World V} (hw : AllSettled w)
    (h : swapExceptAllocator x y w = .ok w') : AllSettled w' := by
  unfold swapExceptAllocator at h
  replace h := ok_of_bind h
  obtain ⟨a, ha, h⟩ := h
  replace h := ok_of_bind h
  obtain ⟨o, ho, h⟩ := h
  have hsa := hw x a (get_some ha)
  have hso := hw y o (get_some ho)
  simp only [Except.ok.injEq] at h
  subst h
  refine settled_setVar (AllSettled.but (settled_setVar (hw.but _) fun b hb => ?_) _) fun b hb => ?_ <;>
    (simp only [Option.some.injEq] at hb; subst hb; first | exact hso | exact hsa)

theorem settled_swapAllocator {x y : Nat} {w w' : World V} (hw : AllSettled w)
    (h : swapAllocator x y w = .ok w') : AllSettled w' := by
  unfold swapAllocator at h
  replace h := ok_of_bind h
  obtain ⟨a, ha, h⟩ := h
  replace h := ok_of_bind h
  obtain ⟨o, ho, h⟩ := h
  have hsa := hw x a (get_some ha)
  have hso := hw y o (get_some ho)
  simp only [Except.ok.injEq] at h
  subst h
  refine settled_setVar (AllSettled.but (settled_setVar (hw.but _) fun b hb => ?_) _) fun b hb => ?_ <;>
    (simp only [Option.some.injEq] at hb; subst hb; first | exact hso | exact hsa)

theorem settled_moveAssign {ty : Types V} {x y : Nat} {w w' : World V} {a o : Arr} (hI : Inv ty w)
    (ha : w.vars x = some a) (ho : w.vars y = some o) (hw : AllSettled w) (h : moveAssignOp ty x y w = .ok w') :
    AllSettled w' := by
  unfold moveAssignOp at h
  rw [get_ok ha, bind_ok, get_ok ho, bind_ok] at h
  split at h
  · rename_i hbb
    split at h
    · exact (still_assert h).settled hw
    · rename_i hs
      have hn : a.base = none := by simpa using hs
      dsimp only at h
      replace h := ok_of_bind h
      obtain ⟨w1, h1, h⟩ := h
      have hsa := hw x a ha
      have hso := hw y o ho
      unfold Settled at hsa hso
      rw [blocksOf_null hn] at hsa
      rw [blocksOf_null (hbb.symm.trans hn)] at hso
      refine (still_assert h).settled (settled_setVar (AllSettled.but (settled_setVar (hw.but _) fun b hb => ?_) _)
        fun b hb => ?_) <;>
      (simp only [Option.some.injEq] at hb; subst hb; unfold Settled; dsimp only)
      · rw [← hso]; exact blocksOf_null hn
      · rw [← hsa]; exact blocksOf_null (hbb.symm.trans hn)
  · rename_i hbb
    split at h
    · replace h := ok_of_bind h
      obtain ⟨w1, h1, h⟩ := h
      exact settled_swapExcept (settled_swapAllocator hw h1) h
    · split at h
      · exact settled_swapExcept hw h
      · exact settled_assign false ha ho (hI.good x a ha).shape.nonNeg (hw.but x) (Or.inl (hw x a ha)) h

theorem settled_moveInto {ty : Types V} {w w' : World V} {y : Nat} {s : Shape} (al : Nat) (c : Prop) [Decidable c]
    (hd : blocksFor ty.defaultShape = 0) (hw : AllSettled w)
    (h : (if c then swapExceptAllocator w.nextVar y (w.push ⟨⟨al, w.nextVar, false⟩, none, 0, none, ty.defaultShape⟩)
        else setShapeMember w.nextVar s (w.push ⟨⟨al, w.nextVar, false⟩, none, 0, none, ty.defaultShape⟩) >>= fun w' =>
          allocate ty w.nextVar w' >>= transfer false ty w.nextVar y) = .ok w') : AllSettled w' := by
  by_cases hc : c
  · rw [if_pos hc] at h
    exact settled_swapExcept (settled_push hw (show Settled ⟨_, none, 0, none, ty.defaultShape⟩ from hd.symm)) h
  · rw [if_neg hc] at h
    exact settled_build (a := ⟨⟨al, w.nextVar, false⟩, none, 0, none, ty.defaultShape⟩) false
      (by rw [push_vars, if_pos rfl]) (settled_push_but hw _) h

theorem settled_newCopy {ty : Types V} {w w' : World V} (hI : Inv ty w) (hdef : TypesOk ty) {y : Nat} {o : Arr}
    (ho : w.vars y = some o) (hw : AllSettled w) (h : newCopy ty y w = .ok w') : AllSettled w' := by
  have hyn : y ≠ w.nextVar := by have := hI.lt ho; omega
  unfold newCopy at h
  dsimp only at h
  rw [get_ok ho, bind_ok] at h
  exact settled_assign true (x := w.nextVar) (y := y) (by rw [push_vars, if_pos rfl])
    (by rw [push_vars, if_neg hyn]; exact ho) hdef.shape.nonNeg (settled_push_but hw _) (Or.inr ⟨rfl, Ne.symm hyn⟩) h

theorem settled_newMove {ty : Types V} {w w' : World V} {y : Nat} {o : Arr}
    (ho : w.vars y = some o) (hd : blocksFor ty.defaultShape = 0) (hw : AllSettled w)
    (h : newMove ty y w = .ok w') : AllSettled w' := by
  unfold newMove at h
  dsimp only at h
  rw [get_ok ho, bind_ok] at h
  exact settled_moveInto _ _ hd hw h

theorem settled_reshape {ty : Types V} {w w' : World V} {x : Nat} {a : Arr} {s : Shape} (hI : Inv ty w)
    (ha : w.vars x = some a) (hnh : NotHollow a) (hs : ShapeOk ty s)
    (hpre : ReshapeOk ty a s) (hdef : TypesOk ty) (hw : AllSettled w) (h : reshape ty x s w = .ok w') :
    AllSettled w' := by
  have hres : s.resolve.resolve = s.resolve := resolve_of_known (resolve_known s)
  unfold reshape at h
  rw [get_ok ha, bind_ok] at h
  dsimp only at h
  by_cases hsame : a.shape = s.resolve
  · rw [if_pos hsame, Except.ok.injEq] at h
    subst h
    exact hw
  · rw [if_neg hsame] at h
    obtain ⟨w1, an, e1, hI1, hst1, hnv1, hv1, hsh1, hal1, hh1, hval1⟩ :=
      newShapeAlloc_ok hI hs.resolve ty.defaultAlloc
    rw [hres] at hsh1
    have hx := hI.lt ha
    have hxn : x ≠ w.nextVar := by omega
    have ha1 : w1.vars x = some a := by rw [hst1.vars x hxn]; exact ha
    unfold newShape at h
    rw [e1, bind_ok, get_ok hv1, bind_ok, get_ok ha1, bind_ok] at h
    have b1 := settled_newShape hw e1
    obtain ⟨w2, e2, hI2, hst2, hv2, hnv2, _, _⟩ := reshape_move (s := s.resolve) hI1 hxn ha1 hv1 hsh1
      (by
        intro hb hd
        apply hpre _ hd
        rcases hb with hb | hb
        · exact Or.inl hb
        · right
          have := hh1 hb
          rw [hsh1, resolve_pos] at this
          exact this) hnh hh1
    rw [e2, bind_ok] at h
    have b2 := (still_forEachPair (fun _ _ _ _ _ h => still_moveAssignAt h) e2).settled b1
    have ha2 : w2.vars x = some a := by rw [hv2]; exact ha1
    have hn2 : w2.vars w.nextVar = some an := by rw [hv2]; exact hv1
    have hpre2 : MoveOk ty a an := MoveOk.of_src fun hb => ⟨hh1 hb, fun _ => by rw [hsh1]; exact resolve_known s⟩
    obtain ⟨w3, a3, n3, e3, hI3, _, _, hn3, _⟩ := moveAssignOp_ok hI2 hdef ha2 hn2 hpre2
    rw [e3, bind_ok] at h
    exact settled_delete hn3 (hI3.good _ _ hn3).shape.nonNeg (settled_moveAssign hI2 ha2 hn2 b2 e3) h

theorem settled_swap {ty : Types V} {w w' : World V} {x y : Nat} {a o : Arr} (hI : Inv ty w)
    (hdef : TypesOk ty) (ha : w.vars x = some a) (ho : w.vars y = some o)
    (hsa : SrcOk ty a) (hso : SrcOk ty o) (hself : x = y → ty.debug = true → ¬ Pos ty.defaultShape)
    (hd : blocksFor ty.defaultShape = 0) (hw : AllSettled w)
    (h : swap ty x y w = .ok w') : AllSettled w' := by
  by_cases hps : ty.propagateSwap = true
  · unfold swap at h
    rw [if_pos hps] at h
    replace h := ok_of_bind h
    obtain ⟨w1, h1, h⟩ := h
    exact settled_swapExcept (settled_swapAllocator hw h1) h
  unfold swap at h
  rw [if_neg hps] at h
  dsimp only at h
  have hn := hI.lt ha
  have hny := hI.lt ho
  obtain ⟨w1, an, o1, e1, hI1, hst1, hnv1, hal1, hy1, hr1, htake1, hkeep1⟩ :=
    newMove_ok hI hdef ho (fun _ => hso)
  rw [e1, bind_ok] at h
  have ho1 : o1.base = none ∧ o1.shape = ty.defaultShape ∨ o1 = o := by
    by_cases ht : TakesNew ty o
    · left; rw [(htake1 ht).2.1]; exact ⟨rfl, rfl⟩
    · right; exact (hkeep1 ht).1
  have hx1 : ∃ a1, w1.vars x = some a1 ∧ (x ≠ y → a1 = a) ∧ (x = y → a1 = o1) := by
    by_cases hxy : x = y
    · exact ⟨o1, by rw [hxy]; exact hy1, fun h => absurd hxy h, fun _ => rfl⟩
    · refine ⟨a, ?_, fun _ => rfl, fun h => absurd h hxy⟩
      rw [hst1.vars x (by rintro (h | h); omega; exact hxy h)]; exact ha
  obtain ⟨a1, hax1, hane, haeq⟩ := hx1
  have hpre2 : MoveOk ty o1 a1 := by
    by_cases hxy : x = y
    · rw [haeq hxy]
      refine ⟨?_, fun h => absurd rfl h⟩
      intro hb _ hd
      rcases ho1 with ⟨_, h⟩ | h
      · rw [h]; exact hself hxy hd
      · rw [h] at hb ⊢; exact (hso hb).1
    · rw [hane hxy]; exact MoveOk.of_src hsa
  obtain ⟨w2, o2, a2, e2, hI2, hst2, hnv2, hx2, hr2, htake2, hnull2, hkeep2⟩ :=
    moveAssignOp_ok hI1 hdef hy1 hax1 hpre2
  rw [e2, bind_ok] at h
  have hnn : w.nextVar ≠ y ∧ w.nextVar ≠ x := by omega
  have hn2 : w2.vars w.nextVar = some an := by
    rw [hst2.vars _ (by rintro (h | h); exact hnn.1 h; exact hnn.2 h)]; exact hr1.var
  obtain ⟨w3, a3, n3, e3, hI3, _, _, hn3, _⟩ :=
    moveAssignOp_ok hI2 hdef hx2 hn2 (MoveOk.of_src (hr1.src hso))
  rw [e3, bind_ok] at h
  exact settled_delete hn3 (hI3.good _ _ hn3).shape.nonNeg (settled_moveAssign hI2 hx2 hn2
    (settled_moveAssign hI1 hy1 hax1 (settled_newMove ho hd hw e1) e2) e3) h

theorem settled_makeFrom (keep : Bool) {ty : Types V} {w w' : World V} {y : Nat} {src : Shape} {off : Int}
    {s : Shape} {al : Nat} (hw : AllSettled w) (h : makeFrom keep ty y src off s al w = .ok w') : AllSettled w' := by
  unfold makeFrom at h
  replace h := ok_of_bind h
  obtain ⟨o, _, h⟩ := h
  replace h := ok_of_bind h
  obtain ⟨w1, h1, h⟩ := h
  replace h := ok_of_bind h
  obtain ⟨d, _, h⟩ := h
  exact (still_assignElements keep h).settled (settled_newShape hw h1)

theorem settled_copyAssign {ty : Types V} {x y : Nat} {w w' : World V} {a o : Arr} (hI : Inv ty w)
    (hdef : TypesOk ty) (ha : w.vars x = some a) (ho : w.vars y = some o) (hw : AllSettled w)
    (h : copyAssignOp ty x y w = .ok w') : AllSettled w' := by
  have hna := (hI.good x a ha).shape.nonNeg
  by_cases hbb : a.base = o.base
  · have e : assignArr true ty x y w = .ok w' := by
      rw [← h]
      show assignCopy ty x y w = _
      unfold copyAssignOp assignCopy
      rw [get_ok ha, bind_ok, bind_ok, get_ok ho, bind_ok, bind_ok, if_pos hbb, if_pos hbb]
    exact settled_assign true ha ho hna (hw.but x) (Or.inl (hw x a ha)) e
  · have hxy : x ≠ y := by
      rintro rfl
      rw [ha] at ho
      simp only [Option.some.injEq] at ho
      exact hbb (by rw [ho])
    unfold copyAssignOp at h
    rw [get_ok ha, bind_ok, get_ok ho, bind_ok, if_neg hbb] at h
    split at h
    · split at h
      · replace h := ok_of_bind h
        obtain ⟨w1, h1, h⟩ := h
        obtain ⟨a1, l1, hb1, hs1, _⟩ := loggedVar_deallocate ha hna h1
        beta_reduce at h
        rw [get_ok l1.self, bind_ok, bind_ok] at h
        have l2 := l1.trans (loggedVar_setVar w1 x (some { a1 with alloc := { a1.alloc with arena := o.alloc.arena } }))
        exact settled_assign true l2.self (by rw [l2.other (Ne.symm hxy)]; exact ho)
          (by rcases hs1 with e | e <;> (dsimp only; rw [e]); exacts [hna, hdef.shape.nonNeg])
          (l2.but (hw.but x)) (Or.inr ⟨hb1, hxy⟩) h
      · rw [bind_ok] at h
        beta_reduce at h
        rw [get_ok ha, bind_ok, bind_ok] at h
        have l2 := loggedVar_setVar w x (some { a with alloc := { a.alloc with arena := o.alloc.arena } })
        have hsa : Settled { a with alloc := { a.alloc with arena := o.alloc.arena } } := hw x a ha
        exact settled_assign true l2.self (by rw [l2.other (Ne.symm hxy)]; exact ho) hna (l2.but (hw.but x))
          (Or.inl hsa) h
    · rw [bind_ok] at h
      exact settled_assign true ha ho hna (hw.but x) (Or.inl (hw x a ha)) h

theorem settled_newFill {ty : Types V} {w w' : World V} (hI : Inv ty w) (hdef : TypesOk ty) {s : Shape}
    {v : V} {al : Nat} (hw : AllSettled w) (h : newFillAlloc ty s v al w = .ok w') : AllSettled w' := by
  obtain ⟨w1, a1, e1, hI1, _, _, hv1, hs1, _, hh1, _⟩ := newShapeAlloc_ok hI hdef.shape al
  unfold newFillAlloc newAlloc at h
  dsimp only at h
  rw [e1, bind_ok] at h
  exact settled_assignFill hv1 (hI1.good _ _ hv1).shape.nonNeg (settled_newShape hw e1) h

/-- Statements keep arrays settled, if the default shape needs no memory. -/
theorem exec_settled {ty : Types V} (hdef : TypesOk ty) (hd : blocksFor ty.defaultShape = 0) {w w' : World V}
    (hI : Inv ty w) {c : Cmd V} (hc : Allowed ty w c) (hw : AllSettled w) (h : exec ty c w = .ok w') :
    AllSettled w' := by
  cases c with
  | new => exact settled_newShape hw h
  | newAlloc al => exact settled_newShape hw h
  | newShape s => exact settled_newShape hw h
  | newShapeAlloc s al => exact settled_newShape hw h
  | newFill s v => exact settled_newFill hI hdef hw h
  | newFillAlloc s v al => exact settled_newFill hI hdef hw h
  | newCopy y =>
    obtain ⟨o, ho, _⟩ := with_iff.1 hc
    exact settled_newCopy hI hdef ho hw h
  | newCopyAlloc y al =>
    obtain ⟨o, ho, _⟩ := with_iff.1 hc
    have hyn : y ≠ w.nextVar := by have := hI.lt ho; omega
    obtain ⟨w1, a1, e1, hI1, hst1, _, hv1, hs1, _, hh1, _⟩ := newShapeAlloc_ok hI hdef.shape al
    change newCopyAlloc ty y al w = _ at h
    unfold newCopyAlloc newAlloc at h
    dsimp only at h
    rw [e1, bind_ok] at h
    have ho1 : w1.vars y = some o := by rw [hst1.vars y hyn]; exact ho
    have hw1 := settled_newShape hw e1
    exact settled_assign true hv1 ho1 (hI1.good _ _ hv1).shape.nonNeg (hw1.but _) (Or.inl (hw1 _ _ hv1)) h
  | newMove y =>
    obtain ⟨o, ho, _⟩ := with_iff.1 hc
    exact settled_newMove ho hd hw h
  | newMoveAlloc y al =>
    obtain ⟨o, ho, _⟩ := with_iff.1 hc
    change newMoveAlloc ty y al w = _ at h
    unfold newMoveAlloc at h
    dsimp only at h
    rw [get_ok ho, bind_ok] at h
    exact settled_moveInto _ _ hd hw h
  | delete x =>
    obtain ⟨a, ha, _⟩ := with_iff.1 hc
    exact settled_delete ha (hI.good _ _ ha).shape.nonNeg hw h
  | copyAssign x y =>
    obtain ⟨a, ha, h1⟩ := with_iff.1 hc
    obtain ⟨o, ho, _⟩ := with_iff.1 h1
    exact settled_copyAssign hI hdef ha ho hw h
  | moveAssign x y =>
    obtain ⟨a, ha, h1⟩ := with_iff.1 hc
    obtain ⟨o, ho, hm⟩ := with_iff.1 h1
    exact settled_moveAssign hI ha ho hw h
  | assignCopy x y =>
    obtain ⟨a, ha, h1⟩ := with_iff.1 hc
    obtain ⟨o, ho, _⟩ := with_iff.1 h1
    exact settled_assign true ha ho (hI.good _ _ ha).shape.nonNeg (hw.but x) (Or.inl (hw x a ha)) h
  | assignMove x y =>
    obtain ⟨a, ha, h1⟩ := with_iff.1 hc
    obtain ⟨o, ho, _⟩ := with_iff.1 h1
    exact settled_assign false ha ho (hI.good _ _ ha).shape.nonNeg (hw.but x) (Or.inl (hw x a ha)) h
  | assignFill x s v =>
    obtain ⟨a, ha, _⟩ := with_iff.1 hc
    exact settled_assignFill ha (hI.good _ _ ha).shape.nonNeg hw h
  | clear x =>
    obtain ⟨a, ha, _⟩ := with_iff.1 hc
    exact settled_clear ha (hI.good _ _ ha).shape.nonNeg hw h
  | reshape x s =>
    obtain ⟨a, ha, hn, hs, hr⟩ := with_iff.1 hc
    exact settled_reshape hI ha hn hs hr hdef hw h
  | swap x y =>
    obtain ⟨a, ha, h1⟩ := with_iff.1 hc
    obtain ⟨o, ho, hsa, hso, hself⟩ := with_iff.1 h1
    exact settled_swap hI hdef ha ho hsa hso hself hd hw h
  | write x i v => exact (still_write h).settled hw
  | makeCopy y s al =>
    obtain ⟨o, ho, hv⟩ := with_iff.1 hc
    exact settled_makeFrom true hw ((makeFromArray_eq ho s al).symm.trans h)
  | makeCopyRef y src off s al => exact settled_makeFrom true hw h
  | makeMove y s al =>
    obtain ⟨o, ho, hv⟩ := with_iff.1 hc
    exact settled_makeFrom false hw ((makeFromArray_eq ho s al).symm.trans h)
  | makeMoveRef y src off s al => exact settled_makeFrom false hw h
  | makeMoveRvalue y s al =>
    obtain ⟨o, ho, hs, hv⟩ := with_iff.1 hc
    change makeMoveRvalue ty y s al w = _ at h
    unfold makeMoveRvalue at h
    rw [get_ok ho, bind_ok] at h
    split at h
    · exact settled_newCopy hI hdef ho hw h
    · exact settled_makeFrom false hw ((makeFromArray_eq ho s al).symm.trans h)
  | copyRef y src soff x dst doff => exact (still_assignRef true h).settled hw
  | moveRef y src soff x dst doff => exact (still_assignRef false h).settled hw
  | forEach x s off f => exact (still_forEachRef h).settled hw
  | transform x s off f => exact (still_transformRef h).settled hw

/-! ### Memory held -/

/-- Array `x` owns block `b`. -/
def holding (w : World V) (b x : Nat) : Nat :=
  match w.vars x with
  | none => 0
  | some a => if a.buffer = some (b, 0) then 1 else 0

theorem Inv.held {ty : Types V} {w : World V} (hI : Inv ty w) : heldBlocks w = allBlocks w := by
  have h1 : ∀ b, (match w.heap b with | none => 0 | some _ => 1) =
      ((List.range w.nextVar).map (holding w b)).sum := by
    intro b
    cases hb : w.heap b with
    | none =>
      symm
      refine List.sum_eq_zero fun n hn => ?_
      obtain ⟨x, _, rfl⟩ := List.mem_map.1 hn
      unfold holding
      split
      · rfl
      · rename_i a ha
        rw [if_neg]
        intro hbuf
        exact ((hI.good x a ha).heap_ne hbuf).1 hb
    | some blk =>
      obtain ⟨x, a, ha, hbuf⟩ := hI.cover b (by rw [hb]; simp)
      rw [sum_one (hI.lt ha) (holding w b)]
      · unfold holding
        rw [ha]
        dsimp only
        rw [if_pos hbuf]
      · intro y hy
        unfold holding
        split
        · rfl
        · rename_i a' ha'
          rw [if_neg]
          intro hbuf'
          exact hy (hI.disj _ _ _ _ _ _ _ ha' ha hbuf' hbuf)
  have h2 : ∀ x, (match w.vars x with | none => 0 | some a => blocksOf a) =
      ((List.range w.nextBlock).map fun b => holding w b x).sum := by
    intro x
    cases ha : w.vars x with
    | none => simp [holding, ha]
    | some a =>
      simp only [holding, ha]
      rcases (hI.good x a ha).own with h | ⟨c, blk, hh, hl⟩
      · simp [h.1.buffer, blocksOf_null h.1.base]
      · have hc : c < w.nextBlock := by
          by_contra hc
          have := hI.fresh c (by omega)
          rw [hh.heap] at this
          simp at this
        rw [sum_one hc]
        · rw [if_pos hh.buffer, blocksOf_some (by rw [hh.base]; simp)]
        · intro b hb
          rw [if_neg]
          rw [hh.buffer]
          simpa using Ne.symm hb
  have hs : ∀ (n : Nat) (f : Nat → Nat), ((List.range n).map f).sum = ∑ k ∈ Finset.range n, f k := by
    intro n f
    induction n with
    | zero => rfl
    | succ n ih => rw [List.range_succ, Finset.sum_range_succ, ← ih]; simp
  have e1 : heldBlocks w = ∑ b ∈ Finset.range w.nextBlock, ∑ x ∈ Finset.range w.nextVar, holding w b x := by
    unfold heldBlocks
    rw [hs]
    exact Finset.sum_congr rfl fun b _ => (h1 b).trans (hs _ _)
  have e2 : allBlocks w = ∑ x ∈ Finset.range w.nextVar, ∑ b ∈ Finset.range w.nextBlock, holding w b x := by
    unfold allBlocks
    rw [hs]
    exact Finset.sum_congr rfl fun x _ => (h2 x).trans (hs _ _)
  rw [e1, e2, Finset.sum_comm]

end Nda
