import Verif.Lemmas.ArrayCalls
import Verif.Lemmas.ArrayRun
/-
The calls of element functions of all statements.
-/
namespace Nda
open Spec

variable {V : Type}

theorem delete_calls {ty : Types V} {x : Nat} {w w' : World V} {a : Arr}
    (ha : w.vars x = some a) (hn : NonNeg a.shape) (h : delete ty x w = .ok w') :
    w'.calls = w.calls ++ times (owned a) .destroy := by
  replace h := ok_of_bind h
  obtain ⟨w1, h1, h⟩ := h
  simp only [Except.ok.injEq] at h
  subst h
  obtain ⟨_, l, _⟩ := loggedVar_deallocate ha hn h1
  exact l.calls

theorem assign_calls (keep : Bool) {ty : Types V} {x y : Nat} {w w' : World V} {a o : Arr} (hI : Inv ty w)
    (ha : w.vars x = some a) (ho : w.vars y = some o) (h : assignArr keep ty x y w = .ok w') :
    w'.calls = w.calls ++ if x = y then [] else
      times (owned a) .destroy ++ times (owned o) (if keep then .copyConstruct else .moveConstruct) := by
  by_cases hxy : x = y
  · subst hxy
    rw [ha] at ho
    simp only [Option.some.injEq] at ho
    subst ho
    rw [assignArr_eq keep ha ha, if_pos rfl] at h
    rw [if_pos rfl]
    split at h
    · exact (logged_assert h).calls
    · replace h := ok_of_bind h
      obtain ⟨w1, h1, h⟩ := h
      rw [(logged_assert h).calls, (loggedVar_setShape ha h1).calls]
      simp
  · rw [if_neg hxy]
    obtain ⟨_, l, _⟩ := loggedVar_assign keep ha ho (Ne.symm hxy) (hI.good x a ha).shape.nonNeg
      (hI.good y o ho).shape.nonNeg (fun hb => by
        by_contra hc
        exact hxy (hI.base_inj ha ho hb hc)) h
    exact l.calls

theorem moveAssign_calls {ty : Types V} {x y : Nat} {w w' : World V} {a o : Arr} (hI : Inv ty w)
    (hdef : TypesOk ty) (ha : w.vars x = some a) (ho : w.vars y = some o) (hpre : MoveOk ty a o)
    (h : moveAssignOp ty x y w = .ok w') :
    w'.calls = w.calls ++ if x = y ∨ TakesAssign ty a o then [] else
      times (owned a) .destroy ++ times (owned o) .moveConstruct := by
  by_cases hbb : a.base = o.base
  · have key : w'.calls = w.calls := by
      unfold moveAssignOp at h
      rw [get_ok ha, bind_ok, get_ok ho, bind_ok, if_pos hbb] at h
      split at h
      · simpa using (logged_assert h).calls
      · dsimp only at h
        replace h := ok_of_bind h
        obtain ⟨w1, h1, h⟩ := h
        simpa [World.setVar] using (logged_assert h).calls
    rw [key]
    split
    · simp
    · rename_i hc
      rw [not_or] at hc
      have : a.base = none := by
        by_contra hn
        exact hc.1 (hI.base_inj ha ho hbb hn)
      rw [owned_null this, owned_null (hbb ▸ this)]
      simp [times]
  · have hxy : x ≠ y := by
      rintro rfl
      rw [ha] at ho
      simp only [Option.some.injEq] at ho
      exact hbb (by rw [ho])
    by_cases ht : TakesAssign ty a o
    · obtain ⟨w1, _, _, e, _, _, _, _, _, h1, _⟩ := moveAssignOp_ok hI hdef ha ho hpre
      rw [e, Except.ok.injEq] at h
      subst h
      rw [if_pos (Or.inr ht), (h1 hbb ht).2.2.2.1, List.append_nil]
    · unfold moveAssignOp at h
      rw [get_ok ha, bind_ok, get_ok ho, bind_ok, if_neg hbb,
        if_neg fun h => ht (Or.inl h), if_neg fun h => ht (Or.inr
          ((Allocator.eq_iff (by rw [hI.self x a ha, hI.self y o ho]; exact hxy)).1 h))] at h
      have := assign_calls false hI ha ho h
      rw [if_neg hxy] at this
      rw [if_neg (by rw [not_or]; exact ⟨hxy, ht⟩)]
      exact this

/-- The two move constructors. -/
theorem moveInto_calls {ty : Types V} {w w' : World V} (hI : Inv ty w) {y : Nat} {o : Arr}
    (ho : w.vars y = some o) (al : Nat) (c : Prop) [Decidable c]
    (h : (if c then swapExceptAllocator w.nextVar y (w.push ⟨⟨al, w.nextVar, false⟩, none, 0, none, ty.defaultShape⟩)
        else setShapeMember w.nextVar o.shape (w.push ⟨⟨al, w.nextVar, false⟩, none, 0, none, ty.defaultShape⟩) >>= fun w' =>
          allocate ty w.nextVar w' >>= transfer false ty w.nextVar y) = .ok w') :
    w'.calls = w.calls ++ (if c then [] else times (owned o) .moveConstruct) ∧
      ((c ∨ NotHollow o) → ∀ a', w'.vars w.nextVar = some a' → owned a' = owned o) ∧
      (¬ c → ∀ a', w'.vars w.nextVar = some a' → a'.base = none → a'.shape.flatExtent = 0) := by
  have hyn : y ≠ w.nextVar := by have := hI.lt ho; omega
  have hv1 : (w.push ⟨⟨al, w.nextVar, false⟩, none, 0, none, ty.defaultShape⟩).vars w.nextVar =
      some ⟨⟨al, w.nextVar, false⟩, none, 0, none, ty.defaultShape⟩ := by rw [push_vars, if_pos rfl]
  have ho1 : (w.push ⟨⟨al, w.nextVar, false⟩, none, 0, none, ty.defaultShape⟩).vars y = some o := by
    rw [push_vars, if_neg hyn]; exact ho
  by_cases hc : c
  · rw [if_pos hc, swapExceptAllocator_ok hv1 ho1, Except.ok.injEq] at h
    subst h
    refine ⟨by simp [World.setVar, World.push, hc], fun _ a' ha' => ?_, fun h => absurd hc h⟩
    simp only [setVar_vars, if_neg (Ne.symm hyn), if_pos] at ha'
    simp only [Option.some.injEq] at ha'
    subst ha'
    rfl
  · rw [if_neg hc] at h
    obtain ⟨a', l, hown, _, hfe⟩ := loggedVar_build false hv1 ho1 hyn (hI.good y o ho).shape.nonNeg h
    rw [if_neg hc]
    refine ⟨l.calls, fun hh a1 ha1 => ?_, fun _ a1 ha1 => ?_⟩
    · rw [l.self, Option.some.injEq] at ha1
      subst ha1
      rw [hown, owned_eq (hh.resolve_left hc)]
    · rw [l.self, Option.some.injEq] at ha1
      subst ha1
      exact hfe

theorem newMove_calls {ty : Types V} {w w' : World V} (hI : Inv ty w) {y : Nat} {o : Arr}
    (ho : w.vars y = some o) (h : newMove ty y w = .ok w') :
    w'.calls = w.calls ++ (if TakesNew ty o then [] else times (owned o) .moveConstruct) ∧
      ((TakesNew ty o ∨ NotHollow o) → ∀ a', w'.vars w.nextVar = some a' → owned a' = owned o) ∧
      (¬ TakesNew ty o → ∀ a', w'.vars w.nextVar = some a' → a'.base = none → a'.shape.flatExtent = 0) := by
  have hyn : w.nextVar ≠ o.alloc.self := by have := hI.lt ho; rw [hI.self y o ho]; omega
  have hcond : (ty.propagateMove || Allocator.eq ⟨allocatorForMove ty o, w.nextVar, false⟩ o.alloc) = true ↔
      TakesNew ty o := by
    rw [Bool.or_eq_true, Allocator.eq_iff hyn]
    unfold TakesNew allocatorForMove
    cases ty.propagateMove <;> simp
  unfold newMove at h
  dsimp only at h
  rw [get_ok ho, bind_ok] at h
  have := moveInto_calls hI ho (allocatorForMove ty o) _ h
  simp only [hcond] at this
  exact this

theorem newMoveAlloc_calls {ty : Types V} {w w' : World V} (hI : Inv ty w) {y : Nat} {o : Arr} {al : Nat}
    (ho : w.vars y = some o) (h : newMoveAlloc ty y al w = .ok w') :
    w'.calls = w.calls ++ if SameAlloc o al then [] else times (owned o) .moveConstruct := by
  have hyn : w.nextVar ≠ o.alloc.self := by have := hI.lt ho; rw [hI.self y o ho]; omega
  have hcond : Allocator.eq ⟨al, w.nextVar, false⟩ o.alloc = true ↔ SameAlloc o al := by
    rw [Allocator.eq_iff hyn]; simp [SameAlloc]
  unfold newMoveAlloc at h
  dsimp only at h
  rw [get_ok ho, bind_ok] at h
  have := (moveInto_calls hI ho al _ h).1
  simp only [hcond] at this
  exact this

theorem newFill_calls {ty : Types V} {w w' : World V} (hI : Inv ty w) (hdef : TypesOk ty) {s : Shape}
    (hs : ShapeOk ty s) {v : V} {al : Nat} (h : newFillAlloc ty s v al w = .ok w') :
    w'.calls = w.calls ++ (times (volume ty.defaultShape) .defaultConstruct ++
      times (volume ty.defaultShape) .destroy ++ times (volume s) .copyConstruct) := by
  obtain ⟨w1, a1, e1, hI1, _, _, hv1, hs1, _, hh1, _⟩ := newShapeAlloc_ok hI hdef.shape al
  unfold newFillAlloc newAlloc at h
  dsimp only at h
  rw [e1, bind_ok] at h
  obtain ⟨_, l⟩ := loggedVar_assignFill hv1 hh1 (hI1.good _ _ hv1).shape.nonNeg hs.nonNeg h
  rw [l.calls, newShape_calls hdef.shape.nonNeg e1, owned_eq hh1, hs1, volume_resolve]
  simp only [List.append_assoc]

theorem newCopy_calls {ty : Types V} {w w' : World V} (hI : Inv ty w) (hdef : TypesOk ty) {y : Nat} {o : Arr}
    (ho : w.vars y = some o) (h : newCopy ty y w = .ok w') :
    w'.calls = w.calls ++ times (owned o) .copyConstruct := by
  have hyn : y ≠ w.nextVar := by have := hI.lt ho; omega
  unfold newCopy at h
  dsimp only at h
  rw [get_ok ho, bind_ok] at h
  obtain ⟨_, l, _⟩ := loggedVar_assign true (x := w.nextVar) (y := y) (by rw [push_vars, if_pos rfl])
    (by rw [push_vars, if_neg hyn]; exact ho) hyn hdef.shape.nonNeg (hI.good y o ho).shape.nonNeg (fun _ => rfl) h
  have := l.calls
  rw [owned_null rfl] at this
  exact this

theorem newCopyAlloc_calls {ty : Types V} {w w' : World V} (hI : Inv ty w) (hdef : TypesOk ty) {y : Nat} {o : Arr}
    {al : Nat} (ho : w.vars y = some o) (h : newCopyAlloc ty y al w = .ok w') :
    w'.calls = w.calls ++ (times (volume ty.defaultShape) .defaultConstruct ++
      times (volume ty.defaultShape) .destroy ++ times (owned o) .copyConstruct) := by
  have hyn : y ≠ w.nextVar := by have := hI.lt ho; omega
  obtain ⟨w1, a1, e1, hI1, hst1, _, hv1, hs1, _, hh1, _⟩ := newShapeAlloc_ok hI hdef.shape al
  unfold newCopyAlloc newAlloc at h
  dsimp only at h
  rw [e1, bind_ok] at h
  have := assign_calls true hI1 hv1 (by rw [hst1.vars y hyn]; exact ho) h
  rw [if_neg (Ne.symm hyn)] at this
  rw [this, newShape_calls hdef.shape.nonNeg e1, owned_eq hh1, hs1, volume_resolve]
  simp only [List.append_assoc, if_true]

theorem copyAssign_calls {ty : Types V} {x y : Nat} {w w' : World V} {a o : Arr} (hI : Inv ty w)
    (hdef : TypesOk ty)
    (ha : w.vars x = some a) (ho : w.vars y = some o) (h : copyAssignOp ty x y w = .ok w') :
    w'.calls = w.calls ++ if x = y then [] else times (owned a) .destroy ++ times (owned o) .copyConstruct := by
  by_cases hbb : a.base = o.base
  · have e : assignArr true ty x y w = .ok w' := by
      rw [← h]
      show assignCopy ty x y w = _
      unfold copyAssignOp assignCopy
      rw [get_ok ha, bind_ok, bind_ok, get_ok ho, bind_ok, bind_ok, if_pos hbb, if_pos hbb]
    exact assign_calls true hI ha ho e
  · have hxy : x ≠ y := by
      rintro rfl
      rw [ha] at ho
      simp only [Option.some.injEq] at ho
      exact hbb (by rw [ho])
    rw [if_neg hxy]
    have hna := (hI.good x a ha).shape.nonNeg
    have hno := (hI.good y o ho).shape.nonNeg
    have hinj : a.base = o.base → a.base = none := fun h => absurd h hbb
    unfold copyAssignOp at h
    rw [get_ok ha, bind_ok, get_ok ho, bind_ok, if_neg hbb] at h
    split at h
    · split at h
      · replace h := ok_of_bind h
        obtain ⟨w1, h1, h⟩ := h
        obtain ⟨a1, l1, hb1, hs1, _⟩ := loggedVar_deallocate ha hna h1
        beta_reduce at h
        rw [get_ok l1.self, bind_ok, bind_ok] at h
        have l2 := l1.trans (loggedVar_setVar w1 x (some { a1 with alloc := { a1.alloc with arena := o.alloc.arena } }))
        obtain ⟨_, l3, _⟩ := loggedVar_assign true l2.self (by rw [l2.other (Ne.symm hxy)]; exact ho) (Ne.symm hxy)
          (by rcases hs1 with e | e <;> (dsimp only; rw [e]); exacts [hna, hdef.shape.nonNeg]) hno (fun _ => hb1) h
        have := (l2.trans l3).calls
        rw [owned_null (a := { a1 with alloc := { a1.alloc with arena := o.alloc.arena } }) hb1] at this
        simpa [times] using this
      · rw [bind_ok] at h
        beta_reduce at h
        rw [get_ok ha, bind_ok, bind_ok] at h
        have l2 := loggedVar_setVar w x (some { a with alloc := { a.alloc with arena := o.alloc.arena } })
        obtain ⟨_, l3, _⟩ := loggedVar_assign true l2.self (by rw [l2.other (Ne.symm hxy)]; exact ho) (Ne.symm hxy)
          hna hno hinj h
        exact (l2.trans l3).calls
    · rw [bind_ok] at h
      obtain ⟨_, l3, _⟩ := loggedVar_assign true ha ho (Ne.symm hxy) hna hno hinj h
      exact l3.calls

theorem clear_calls {ty : Types V} {w w' : World V} {x : Nat} {a : Arr} (hdef : TypesOk ty)
    (ha : w.vars x = some a) (hna : NonNeg a.shape) (h : clear ty x w = .ok w') :
    w'.calls = w.calls ++ (times (owned a) .destroy ++ times (volume ty.defaultShape) .defaultConstruct) := by
  replace h := ok_of_bind h
  obtain ⟨w1, h1, h⟩ := h
  replace h := ok_of_bind h
  obtain ⟨w2, h2, h⟩ := h
  replace h := ok_of_bind h
  obtain ⟨w3, h3, h⟩ := h
  obtain ⟨a1, l1, _⟩ := loggedVar_deallocate ha hna h1
  have l2 := loggedVar_setShape l1.self h2
  obtain ⟨a3, l3, hh3, hs3, _⟩ := loggedVar_allocate l2.self h3
  have l4 := logged_construct l3.self (by rw [hs3]; exact resolve_nonNeg.2 hdef.shape.nonNeg) h
  rw [owned_eq hh3, hs3, volume_resolve] at l4
  simpa using (((l1.trans l2).trans l3).then l4).calls

theorem reshape_calls {ty : Types V} {w w' : World V} {x : Nat} {a : Arr} {s : Shape} (hI : Inv ty w)
    (hdef : TypesOk ty) (ha : w.vars x = some a) (hnh : NotHollow a) (hs : ShapeOk ty s)
    (hpre : ReshapeOk ty a s) (h : reshape ty x s w = .ok w') :
    w'.calls = w.calls ++ if a.shape = s.resolve then []
      else times (volume s) .defaultConstruct ++ times (common s a.shape) .moveAssign ++ times (owned a) .destroy ++
        if ty.propagateMove = true ∨ a.alloc.allocated = false ∧ a.alloc.arena = ty.defaultAlloc ∧
            ¬ (0 < s.resolve.flatExtent ∧ s.resolve.flatExtent ≤ ty.inlineSize) then []
        else times (volume s) .moveConstruct ++ times (volume s) .destroy := by
  have hres : s.resolve.resolve = s.resolve := resolve_of_known (resolve_known s)
  unfold reshape at h
  rw [get_ok ha, bind_ok] at h
  dsimp only at h
  by_cases hsame : a.shape = s.resolve
  · rw [if_pos hsame, Except.ok.injEq] at h
    subst h
    rw [if_pos hsame, List.append_nil]
  · rw [if_neg hsame] at h ⊢
    obtain ⟨w1, an, e1, hI1, hst1, hnv1, hv1, hsh1, hal1, hh1, hval1⟩ :=
      newShapeAlloc_ok hI hs.resolve ty.defaultAlloc
    rw [hres] at hsh1
    have hx := hI.lt ha
    have hxn : x ≠ w.nextVar := by omega
    have ha1 : w1.vars x = some a := by rw [hst1.vars x hxn]; exact ha
    unfold newShape at h
    rw [e1, bind_ok, get_ok hv1, bind_ok, get_ok ha1, bind_ok] at h
    have c1 := newShape_calls hs.resolve.nonNeg e1
    rw [volume_resolve] at c1
    have hg := hI1.good _ _ ha1
    have hgn := hI1.good _ _ hv1
    have hlen : List.length s.resolve = List.length a.shape := by
      rw [← hsh1]; exact hgn.shape.rank.trans hg.shape.rank.symm
    obtain ⟨w2, e2, hI2, hst2, hv2, hnv2, _, _⟩ := reshape_move (s := s.resolve) hI1 hxn ha1 hv1 hsh1
      (by
        intro hb hd
        apply hpre _ hd
        rcases hb with hb | hb
        · exact Or.inl hb
        · right
          have := hh1 hb
          rw [hsh1, resolve_pos] at this
          exact this) hnh hh1
    rw [e2, bind_ok] at h
    have c2 := logged_forEachPair (fun _ _ _ _ _ h => logged_moveAssignAt h)
      (by rw [clamp_length hlen, hlen]) hg.shape.nonNeg e2
    have hcount : (if a.base = none ∨ Option.map (fun p : Nat × Int => (p.1, p.2 + s.resolve.flatOffset
        (Shape.clamp s.resolve a.shape).mins)) an.base = none then 0 else volume (Shape.clamp s.resolve a.shape)) =
        common s a.shape := by
      rw [volume_clamp hlen, common_resolve]
      split
      · rename_i hb
        rw [← common_resolve, ← volume_clamp hlen, volume_zero]
        intro hp
        obtain ⟨i, hi⟩ := exists_inBox_iff.2 hp
        obtain ⟨hi1, hi2⟩ := (inBox_clamp hlen).1 hi
        rcases hb with hb | hb
        · exact hnh hb (pos_of_inBox hi2)
        · rw [Option.map_eq_none_iff] at hb
          exact hh1 hb (by rw [hsh1]; exact pos_of_inBox hi1)
      · rfl
    rw [hcount] at c2
    have hsrc : SrcOk ty an := fun hb => ⟨hh1 hb, fun _ => by rw [hsh1]; exact resolve_known s⟩
    have ha2 : w2.vars x = some a := by rw [hv2]; exact ha1
    have hn2 : w2.vars w.nextVar = some an := by rw [hv2]; exact hv1
    obtain ⟨w3, a3, n3, e3, hI3, hst3, hnv3, hn3, hr3, htake3, hnull3, hkeep3⟩ :=
      moveAssignOp_ok hI2 hdef ha2 hn2 (MoveOk.of_src hsrc)
    rw [e3, bind_ok] at h
    have c3 := moveAssign_calls hI2 hdef ha2 hn2 (MoveOk.of_src hsrc) e3
    have c4 := delete_calls hn3 (hI3.good _ _ hn3).shape.nonNeg h
    have hoa : owned an = volume s := by rw [owned_eq hh1, hsh1, volume_resolve]
    -- the condition
    have hcond : TakesAssign ty a an ↔ (ty.propagateMove = true ∨ a.alloc.allocated = false ∧
        a.alloc.arena = ty.defaultAlloc ∧ ¬ (0 < s.resolve.flatExtent ∧ s.resolve.flatExtent ≤ ty.inlineSize)) := by
      have hfit : an.alloc.allocated = decide (0 < s.resolve.flatExtent ∧ s.resolve.flatExtent ≤ ty.inlineSize) := by
        by_cases hb : an.base = none
        · obtain ⟨n1, l, hf⟩ := loggedVar_newShape hs.resolve.nonNeg e1
          have := l.self
          rw [hv1, Option.some.injEq] at this
          subst this
          have h0 := hf hb
          rw [hsh1] at h0
          rw [(hgn.null hb).idle, h0]
          simp
        · have := hgn.fits (fun hc => by
            obtain ⟨p, hp⟩ := Option.ne_none_iff_exists'.1 hb
            rw [hgn.base_block hp] at hc; simp at hc)
          rw [hsh1] at this
          rw [this.2]
          simp [this.1]
      unfold TakesAssign
      rw [hal1, hfit, decide_eq_false_iff_not]
      constructor
      · rintro (h | ⟨h1, h2, h3⟩)
        exacts [Or.inl h, Or.inr ⟨h1, h3, h2⟩]
      · rintro (h | ⟨h1, h2, h3⟩)
        exacts [Or.inl h, Or.inr ⟨h1, h3, h2⟩]
    have hsameBase : a.base = an.base → owned n3 = 0 ∧ owned a = 0 ∧ volume s = 0 := by
      intro hbb
      have hb : a.base = none := by
        by_contra hc
        exact hxn (hI2.base_inj ha2 hn2 hbb hc)
      have hbn : an.base = none := hbb ▸ hb
      refine ⟨?_, owned_null hb, by rw [← hoa, owned_null hbn]⟩
      rw [(hnull3 hb hbn).2.1 hxn]
      exact owned_null hbn
    rw [c4, c3, c2.calls, c1]
    by_cases ht : TakesAssign ty a an
    · rw [if_pos (Or.inr ht), if_pos (hcond.1 ht)]
      have : owned n3 = owned a := by
        by_cases hbb : a.base = an.base
        · rw [(hsameBase hbb).1, (hsameBase hbb).2.1]
        · rw [(htake3 hbb ht).2.1]; rfl
      rw [this]
      simp only [List.append_assoc, List.append_nil]
    · rw [if_neg (by rw [not_or]; exact ⟨hxn, ht⟩), if_neg fun h => ht (hcond.2 h)]
      have : owned n3 = volume s := by
        by_cases hbb : a.base = an.base
        · rw [(hsameBase hbb).1, (hsameBase hbb).2.2]
        · rw [(hkeep3 hbb ht).1, hoa]
      rw [this, hoa]
      simp only [List.append_assoc]

theorem swap_calls {ty : Types V} {w w' : World V} {x y : Nat} {a o : Arr} (hI : Inv ty w)
    (hdef : TypesOk ty) (ha : w.vars x = some a) (ho : w.vars y = some o)
    (hsa : SrcOk ty a) (hso : SrcOk ty o) (hself : x = y → ty.debug = true → ¬ Pos ty.defaultShape)
    (h : swap ty x y w = .ok w') : w'.calls = w.calls ++ callsOf ty w (.swap x y) := by
  simp only [callsOf, callsOf.of, ha, ho]
  by_cases hps : ty.propagateSwap = true
  · obtain ⟨w1, _, _, e, _, _, _, _, _, hp⟩ := swap_ok hI hdef ha ho hsa hso hself
    rw [e, Except.ok.injEq] at h
    subst h
    rw [if_pos (Or.inl hps), (hp hps).2.2.2, List.append_nil]
  unfold swap at h
  rw [if_neg hps] at h
  dsimp only at h
  have hn := hI.lt ha
  have hny := hI.lt ho
  obtain ⟨w1, an, o1, e1, hI1, hst1, hnv1, hal1, hy1, hr1, htake1, hkeep1⟩ :=
    newMove_ok hI hdef ho (fun _ => hso)
  rw [e1, bind_ok] at h
  obtain ⟨c1, hown, hfe⟩ := newMove_calls hI ho e1
  have hown := hown (Or.inr fun hb => (hso hb).1) an hr1.var
  have ho1 : o1.base = none ∧ o1.shape = ty.defaultShape ∨ o1 = o := by
    by_cases ht : TakesNew ty o
    · left; rw [(htake1 ht).2.1]; exact ⟨rfl, rfl⟩
    · right; exact (hkeep1 ht).1
  have hx1 : ∃ a1, w1.vars x = some a1 ∧ (x ≠ y → a1 = a) ∧ (x = y → a1 = o1) := by
    by_cases hxy : x = y
    · exact ⟨o1, by rw [hxy]; exact hy1, fun h => absurd hxy h, fun _ => rfl⟩
    · refine ⟨a, ?_, fun _ => rfl, fun h => absurd h hxy⟩
      rw [hst1.vars x (by rintro (h | h); omega; exact hxy h)]; exact ha
  obtain ⟨a1, hax1, hane, haeq⟩ := hx1
  have hpre2 : MoveOk ty o1 a1 := by
    by_cases hxy : x = y
    · rw [haeq hxy]
      refine ⟨?_, fun h => absurd rfl h⟩
      intro hb _ hd
      rcases ho1 with ⟨_, h⟩ | h
      · rw [h]; exact hself hxy hd
      · rw [h] at hb ⊢; exact (hso hb).1
    · rw [hane hxy]; exact MoveOk.of_src hsa
  obtain ⟨w2, o2, a2, e2, hI2, hst2, hnv2, hx2, hr2, htake2, hnull2, hkeep2⟩ :=
    moveAssignOp_ok hI1 hdef hy1 hax1 hpre2
  rw [e2, bind_ok] at h
  have c2 := moveAssign_calls hI1 hdef hy1 hax1 hpre2 e2
  have hnn : w.nextVar ≠ y ∧ w.nextVar ≠ x := by omega
  have hn2 : w2.vars w.nextVar = some an := by
    rw [hst2.vars _ (by rintro (h | h); exact hnn.1 h; exact hnn.2 h)]; exact hr1.var
  obtain ⟨w3, a3, n3, e3, hI3, hst3, hnv3, hn3, hr3, htake3, hnull3, hkeep3⟩ :=
    moveAssignOp_ok hI2 hdef hx2 hn2 (MoveOk.of_src (hr1.src hso))
  rw [e3, bind_ok] at h
  have c3 := moveAssign_calls hI2 hdef hx2 hn2 (MoveOk.of_src (hr1.src hso)) e3
  have c4 := delete_calls hn3 (hI3.good _ _ hn3).shape.nonNeg h
  have hxn : x ≠ w.nextVar := Ne.symm hnn.2
  -- the elements of `x` before the third step, and of the temporary after it
  have hn3own : owned n3 = if TakesAssign ty a2 an then owned a2 else owned an := by
    by_cases hbb : a2.base = an.base
    · have hb : a2.base = none := by
        by_contra hc
        exact hxn (hI2.base_inj hx2 hn2 hbb hc)
      have hbn : an.base = none := hbb ▸ hb
      rw [owned_null hb, owned_null hbn, (hnull3 hb hbn).2.1 hxn, ite_self]
      exact owned_null hbn
    · by_cases ht : TakesAssign ty a2 an
      · rw [if_pos ht, (htake3 hbb ht).2.1]; rfl
      · rw [if_neg ht, (hkeep3 hbb ht).1]
  have ho1alloc : o1.alloc = o.alloc := by
    by_cases ht : TakesNew ty o
    · rw [(htake1 ht).2.1]
    · rw [(hkeep1 ht).1]
  have ha2 : owned a2 = (if x = y ∨ TakesAssign ty o1 a1 then owned o1 else owned a1) ∧
      (ty.propagateMove = false → a2.alloc.arena = a.alloc.arena ∧ a2.alloc.allocated = a.alloc.allocated) := by
    by_cases hxy : x = y
    · subst hxy
      rw [haeq rfl] at hax1 hnull2
      have hao : a = o := by rw [ha] at ho; simpa using ho
      rw [if_pos (Or.inl rfl), hao, ← ho1alloc]
      have : a2 = o1 := by
        by_cases hb : o1.base = none
        · have := (hnull2 hb hb).1
          have h3 := hr2.var
          rw [hx2] at h3
          simp only [Option.some.injEq] at h3
          rw [h3, this]
        · unfold moveAssignOp at e2
          rw [get_ok hax1, bind_ok, bind_ok, if_pos rfl, if_pos (by rw [Option.isSome_iff_ne_none]; exact hb)] at e2
          have := (ok_of_assert e2).2
          subst this
          rw [hax1] at hx2
          simpa using hx2.symm
      rw [this]
      exact ⟨rfl, fun _ => ⟨rfl, rfl⟩⟩
    · have haa := hane hxy
      subst haa
      by_cases hbb : o1.base = a1.base
      · have hb : o1.base = none := by
          by_contra hc
          exact hxy (hI1.base_inj hy1 hax1 hbb hc).symm
        have hbn : a1.base = none := hbb ▸ hb
        rw [owned_null hb, owned_null hbn, (hnull2 hb hbn).2.1 (Ne.symm hxy), ite_self]
        exact ⟨owned_null hbn, fun _ => ⟨rfl, rfl⟩⟩
      · by_cases ht : TakesAssign ty o1 a1
        · rw [if_pos (Or.inr ht), (htake2 hbb ht).2.1]
          refine ⟨rfl, fun hpm => ?_⟩
          rcases ht with ht | ht
          · rw [hpm] at ht; simp at ht
          · exact ⟨ht.2.2, ht.2.1.symm⟩
        · rw [if_neg (by rintro (h | h); exact hxy h; exact ht h), (hkeep2 hbb ht).1]
          exact ⟨rfl, fun _ => ⟨rfl, rfl⟩⟩
  obtain ⟨ha2own, ha2arena⟩ := ha2
  have ha1alloc : a.alloc = a1.alloc := by
    by_cases hxy : x = y
    · have hao : a = o := by rw [hxy, ho] at ha; simpa using ha.symm
      rw [haeq hxy, ho1alloc, hao]
    · rw [hane hxy]
  have hxalloc : x = y → a.alloc = o.alloc := by
    intro hxy
    rw [hxy, ho] at ha
    simp only [Option.some.injEq] at ha
    rw [ha]
  have ha1own : x ≠ y → owned a1 = owned a := fun h => by rw [hane h]
  have ho1own : owned o1 = if TakesNew ty o then 0 else owned o := by
    by_cases ht : TakesNew ty o
    · rw [if_pos ht, (htake1 ht).2.1]; rfl
    · rw [if_neg ht, (hkeep1 ht).1]
  have hnot : ¬ (x = w.nextVar) := hxn
  rw [c4, c3, c2, c1, List.append_assoc, List.append_assoc, List.append_assoc]
  refine congrArg (w.calls ++ ·) ?_
  rw [hn3own, ha2own, ho1own, hown]
  by_cases hpm : ty.propagateMove = true
  · simp [hpm, times, TakesNew, TakesAssign]
  have hpm' : ty.propagateMove = false := by simpa using hpm
  have t1 : TakesNew ty o ↔ o.alloc.allocated = false ∧ o.alloc.arena = ty.defaultAlloc := by
    unfold TakesNew; rw [eq_comm (a := ty.defaultAlloc)]; simp [hpm]
  have t2 : TakesAssign ty o1 a1 ↔
      o.alloc.allocated = false ∧ a.alloc.allocated = false ∧ o.alloc.arena = a.alloc.arena := by
    unfold TakesAssign; rw [ho1alloc, ← ha1alloc]; simp [hpm]
  have t3 : TakesAssign ty a2 an ↔
      a.alloc.allocated = false ∧ an.alloc.allocated = false ∧ a.alloc.arena = ty.defaultAlloc := by
    unfold TakesAssign
    rw [hal1]
    unfold allocatorForMove
    rw [if_neg hpm, (ha2arena hpm').1, (ha2arena hpm').2]; simp [hpm]
  have hgn := hI1.good _ _ hr1.var
  have hgo := hI.good _ _ ho
  have hbuf : ∀ {w : World V} {c : Arr}, Good ty w c → (c.buffer = none ↔ c.base = none) := by
    intro w c hg
    rcases hg.own with h | ⟨b, blk, hh, _⟩
    · simp [h.1.buffer, h.1.base]
    · simp [hh.buffer, hh.base]
  have n1 : TakesNew ty o → an.alloc.allocated = false := fun ht => by rw [(htake1 ht).1]
  have n2 : o.alloc.allocated = true → an.alloc.allocated = true := by
    intro hal
    have hob : o.buffer ≠ none := by
      intro h
      rcases hgo.own with h | ⟨b, blk, hh, _⟩
      · rw [h.1.idle] at hal; simp at hal
      · rw [hh.buffer] at h; simp at h
    have hf := hgo.fits hob
    have hsh : an.shape = o.shape := hr1.shape.resolve_right fun h => hob ((hbuf hgo).2 h.1)
    have hnt : ¬ TakesNew ty o := by rw [t1, hal]; simp
    have hab : an.base ≠ none := by
      intro hb
      have := hfe hnt an hr1.var hb
      rw [hsh] at this
      omega
    have hf2 := hgn.fits fun h => hab ((hbuf hgn).1 h)
    rw [hf2.2, hsh, ← hf.2, hal]
  have n3 : o.alloc.allocated = false → o.base ≠ none → an.alloc.allocated = false := by
    intro hal hob
    by_cases hab : an.buffer = none
    · rcases hgn.own with h | ⟨b, blk, hh, _⟩
      · exact h.1.idle
      · rw [hh.buffer] at hab; simp at hab
    · have hf := hgo.fits fun h => hob ((hbuf hgo).1 h)
      have hf2 := hgn.fits hab
      have hsh : an.shape = o.shape := hr1.shape.resolve_right fun h => hob h.1
      rw [hf2.2, hsh, ← hf.2, hal]
  simp only [hps, hpm, hnot, false_or, Bool.false_eq_true, OnHeap]
  by_cases h1 : o.alloc.allocated = false ∧ o.alloc.arena = ty.defaultAlloc
  · have m1 := t1.2 h1
    have m2 := n1 m1
    by_cases h2 : a.alloc.allocated = false ∧ a.alloc.arena = ty.defaultAlloc
    · have m3 := t2.2 ⟨h1.1, h2.1, h1.2.trans h2.2.symm⟩
      have m4 := t3.2 ⟨h2.1, m2, h2.2⟩
      simp [m1, m3, m4, h1, h2, times]
    · have hxy : x ≠ y := fun h => h2 (hxalloc h ▸ h1)
      have m3 : ¬ TakesAssign ty o1 a1 := fun h => h2 ⟨(t2.1 h).2.1, (t2.1 h).2.2 ▸ h1.2⟩
      have m4 : ¬ TakesAssign ty a2 an := fun h => h2 ⟨(t3.1 h).1, (t3.1 h).2.2⟩
      simp [m1, m3, m4, h1, h2, hxy, ha1own hxy, Ne.symm hxy, times]
  · have m1 : ¬ TakesNew ty o := fun h => h1 (t1.1 h)
    by_cases h2 : a.alloc.allocated = false ∧ a.alloc.arena = ty.defaultAlloc
    · have hxy : x ≠ y := fun h => h1 (hxalloc h ▸ h2)
      have m3 : ¬ TakesAssign ty o1 a1 := fun h => h1 ⟨(t2.1 h).1, (t2.1 h).2.2.trans h2.2⟩
      rcases Bool.eq_false_or_eq_true o.alloc.allocated with h3 | h3
      · have m4 : ¬ TakesAssign ty a2 an := fun h => by
          have := (t3.1 h).2.1
          rw [n2 h3] at this
          simp at this
        simp [m1, m3, m4, h2, h3, hxy, ha1own hxy, Ne.symm hxy, times]
      · have h4 : ¬ o.alloc.arena = ty.defaultAlloc := fun h => h1 ⟨h3, h⟩
        by_cases hob : o.base = none
        · rw [owned_null hob]
          by_cases m4 : TakesAssign ty a2 an <;>
            simp [m1, m3, m4, h2, h3, h4, hxy, ha1own hxy, Ne.symm hxy, times]
        · have m4 := t3.2 ⟨h2.1, n3 h3 hob, h2.2⟩
          simp [m1, m3, m4, h2, h3, h4, hxy, ha1own hxy, Ne.symm hxy, times]
    · have m4 : ¬ TakesAssign ty a2 an := fun h => h2 ⟨(t3.1 h).1, (t3.1 h).2.2⟩
      by_cases hxy : x = y
      · have hyx : y = x := hxy.symm
        simp only [if_neg h1, if_neg h2, m1, m4, if_true, if_false]
        simp [hxy, times, h1, h2]
      · by_cases h3 : a.alloc.allocated = false ∧ o.alloc.allocated = false ∧ a.alloc.arena = o.alloc.arena
        · have m3 := t2.2 ⟨h3.2.1, h3.1, h3.2.2.symm⟩
          have h4 : ¬ o.alloc.arena = ty.defaultAlloc := fun h => h1 ⟨h3.2.1, h⟩
          simp [m1, m3, m4, h3, h4, hxy, times]
        · have m3 : ¬ TakesAssign ty o1 a1 := fun h => h3 ⟨(t2.1 h).2.1, (t2.1 h).1, (t2.1 h).2.2.symm⟩
          simp [m1, m3, m4, h1, h2, h3, hxy, ha1own hxy, Ne.symm hxy, times]

theorem logged_assignElements (keep : Bool) {ty : Types V} {src dst : Shape} {p q : Ptr} {w w' : World V}
    (hl : List.length src = List.length dst) (hs : NonNeg src) (hd : NonNeg dst)
    (hpq : Pos dst → p ≠ none ∧ q ≠ none) (h : assignElements keep ty src p dst q w = .ok w') :
    Logged w w' (times (volume dst) (if keep then .copyAssign else .moveAssign)) := by
  unfold assignElements at h
  by_cases hp : Pos dst
  · rw [if_neg fun h => (empty_iff_not_pos hd).1 h hp] at h
    replace h := ok_of_bind h
    obtain ⟨w1, h1, h⟩ := h
    obtain ⟨_, rfl⟩ := ok_of_assert h1
    have := logged_forEachPair (k := if keep then Call.copyAssign else .moveAssign) (by
      intro bs bd p w w' h
      cases keep
      · exact logged_moveAssignAt h
      · exact logged_copyAssignAt h) hl hs h
    rwa [if_neg (by rintro (h | h); exact (hpq hp).1 h; exact (hpq hp).2 h)] at this
  · rw [if_pos ((empty_iff_not_pos hd).2 hp), Except.ok.injEq] at h
    subst h
    rw [volume_zero hp]; exact Logged.refl _

theorem makeFrom_calls (keep : Bool) {ty : Types V} {w w' : World V} {y : Nat} {o : Arr} {src : Shape} {off : Int}
    {s : Shape} {al : Nat} (hI : Inv ty w) (ho : w.vars y = some o) (hv : ViewOk ty o src off s)
    (h : makeFrom keep ty y src off s al w = .ok w') :
    w'.calls = w.calls ++ (times (volume s) .defaultConstruct ++
      times (volume s) (if keep then .copyAssign else .moveAssign)) := by
  obtain ⟨w1, a1, e1, hI1, hst1, hnv1, hv1, hsh1, hal1, hh1, hval1⟩ := newShapeAlloc_ok hI hv.shape al
  unfold makeFrom at h
  rw [get_ok ho, bind_ok] at h
  rw [e1, bind_ok, get_ok hv1, bind_ok] at h
  have l := logged_assignElements keep (by rw [hsh1, resolve_length]; exact hv.rank) hv.nonNeg
    (hI1.good _ _ hv1).shape.nonNeg (fun hp => ⟨by
      have := (hv.sub _ (min_inBox (resolve_pos.1 (hsh1 ▸ hp)))).2.1
      simpa using this, fun hb => hh1 hb hp⟩) h
  rw [l.calls, newShape_calls hv.shape.nonNeg e1, List.append_assoc, hsh1, volume_resolve]

theorem assignRef_calls (keep : Bool) {ty : Types V} {w w' : World V} {y x : Nat} {o a : Arr} {src dst : Shape}
    {soff doff : Int} (ho : w.vars y = some o) (ha : w.vars x = some a)
    (hv : PairOk o src soff a dst doff) (h : assignRef keep ty y src soff x dst doff w = .ok w') :
    w'.calls = w.calls ++ times (volume dst) (if keep then .copyAssign else .moveAssign) := by
  unfold assignRef at h
  rw [get_ok ho, bind_ok, get_ok ha, bind_ok] at h
  exact (logged_assignElements keep hv.rank hv.nonNegSrc hv.nonNegDst (fun hp => by
    have := (hv.sub _ (min_inBox hp)).2
    exact ⟨by simpa using this.1.1, by simpa using this.2.1⟩) h).calls

theorem forEachRef_calls {ty : Types V} {w w' : World V} {x : Nat} {a : Arr} {s : Shape} {off : Int}
    {f : Nat → V → V} (ha : w.vars x = some a) (hv : PartOk a s off)
    (h : forEachRef ty x s off f w = .ok w') : w'.calls = w.calls ++ times (volume s) .copyAssign := by
  unfold forEachRef at h
  rw [get_ok ha, bind_ok] at h
  cases hb : a.base with
  | none =>
    rw [hb] at h
    rw [volume_zero fun hp => (hv.sub _ (min_inBox hp)).1 hb]
    exact (logged_assert h).calls
  | some p =>
    obtain ⟨b, o⟩ := p
    rw [hb] at h
    rw [← boxList_volume]
    have := (logged_foldlM (k := .copyAssign) (fun w w' p h => logged_replaceAt h) _ h).calls
    rwa [List.length_zipIdx, (forEachValue_perm _ hv.nonNeg _).length_eq, List.length_map] at this

theorem transformRef_calls {w w' : World V} {x : Nat} {a : Arr} {s : Shape} {off : Int}
    {f : Index → V} (ha : w.vars x = some a) (hv : PartOk a s off)
    (h : transformRef x s off f w = .ok w') : w'.calls = w.calls ++ times (volume s) .moveAssign := by
  unfold transformRef at h
  rw [get_ok ha, bind_ok, forEachIndex_eq hv.nonNeg] at h
  dsimp only at h
  rw [← boxList_volume]
  refine (logged_foldlM (k := .moveAssign) (fun w w' p h => ?_) _ h).calls
  split at h
  · simp at h
  · exact logged_assignAt h

theorem write_calls {w w' : World V} {x : Nat} {i : Index} {v : V} (h : write x i v w = .ok w') :
    w'.calls = w.calls ++ [.copyAssign] := by
  replace h := ok_of_bind h
  obtain ⟨a, _, h⟩ := h
  split at h
  · simp at h
  · exact (logged_assignAt h).calls

/-- The calls of every allowed statement. -/
theorem exec_calls {ty : Types V} (hdef : TypesOk ty) {w w' : World V} (hI : Inv ty w) {c : Cmd V}
    (hc : Allowed ty w c) (h : exec ty c w = .ok w') :
    w'.calls = w.calls ++ callsOf ty w c := by
  cases c with
  | new => exact newShape_calls hdef.shape.nonNeg h
  | newAlloc al => exact newShape_calls hdef.shape.nonNeg h
  | newShape s => exact newShape_calls (ShapeOk.nonNeg hc) h
  | newShapeAlloc s al => exact newShape_calls (ShapeOk.nonNeg hc) h
  | newFill s v => exact newFill_calls hI hdef hc h
  | newFillAlloc s v al => exact newFill_calls hI hdef hc h
  | newCopy y =>
    obtain ⟨o, ho, _⟩ := with_iff.1 hc
    simp only [callsOf, callsOf.of, ho]
    exact newCopy_calls hI hdef ho h
  | newCopyAlloc y al =>
    obtain ⟨o, ho, _⟩ := with_iff.1 hc
    simp only [callsOf, callsOf.of, ho]
    exact newCopyAlloc_calls hI hdef ho h
  | newMove y =>
    obtain ⟨o, ho, _⟩ := with_iff.1 hc
    simp only [callsOf, callsOf.of, ho]
    exact (newMove_calls hI ho h).1
  | newMoveAlloc y al =>
    obtain ⟨o, ho, _⟩ := with_iff.1 hc
    simp only [callsOf, callsOf.of, ho]
    exact newMoveAlloc_calls hI ho h
  | delete x =>
    obtain ⟨a, ha, _⟩ := with_iff.1 hc
    simp only [callsOf, callsOf.of, ha]
    exact delete_calls ha (hI.good _ _ ha).shape.nonNeg h
  | copyAssign x y =>
    obtain ⟨a, ha, h1⟩ := with_iff.1 hc
    obtain ⟨o, ho, _⟩ := with_iff.1 h1
    simp only [callsOf, callsOf.of, ha, ho]
    exact copyAssign_calls hI hdef ha ho h
  | moveAssign x y =>
    obtain ⟨a, ha, h1⟩ := with_iff.1 hc
    obtain ⟨o, ho, hm⟩ := with_iff.1 h1
    simp only [callsOf, callsOf.of, ha, ho]
    exact moveAssign_calls hI hdef ha ho hm h
  | assignCopy x y =>
    obtain ⟨a, ha, h1⟩ := with_iff.1 hc
    obtain ⟨o, ho, _⟩ := with_iff.1 h1
    simp only [callsOf, callsOf.of, ha, ho]
    exact assign_calls true hI ha ho h
  | assignMove x y =>
    obtain ⟨a, ha, h1⟩ := with_iff.1 hc
    obtain ⟨o, ho, _⟩ := with_iff.1 h1
    simp only [callsOf, callsOf.of, ha, ho]
    exact assign_calls false hI ha ho h
  | assignFill x s v =>
    obtain ⟨a, ha, hn, hs⟩ := with_iff.1 hc
    simp only [callsOf, callsOf.of, ha]
    obtain ⟨_, l⟩ := loggedVar_assignFill ha hn (hI.good _ _ ha).shape.nonNeg hs.nonNeg h
    exact l.calls
  | clear x =>
    obtain ⟨a, ha, _⟩ := with_iff.1 hc
    simp only [callsOf, callsOf.of, ha]
    exact clear_calls hdef ha (hI.good _ _ ha).shape.nonNeg h
  | reshape x s =>
    obtain ⟨a, ha, hn, hs, hr⟩ := with_iff.1 hc
    simp only [callsOf, callsOf.of, ha]
    exact reshape_calls hI hdef ha hn hs hr h
  | swap x y =>
    obtain ⟨a, ha, h1⟩ := with_iff.1 hc
    obtain ⟨o, ho, hsa, hso, hself⟩ := with_iff.1 h1
    exact swap_calls hI hdef ha ho hsa hso hself h
  | write x i v => exact write_calls h
  | makeCopy y s al =>
    obtain ⟨o, ho, hv⟩ := with_iff.1 hc
    exact makeFrom_calls true hI ho hv ((makeFromArray_eq ho s al).symm.trans h)
  | makeCopyRef y src off s al =>
    obtain ⟨o, ho, hv⟩ := with_iff.1 hc
    exact makeFrom_calls true hI ho hv h
  | makeMove y s al =>
    obtain ⟨o, ho, hv⟩ := with_iff.1 hc
    exact makeFrom_calls false hI ho hv ((makeFromArray_eq ho s al).symm.trans h)
  | makeMoveRef y src off s al =>
    obtain ⟨o, ho, hv⟩ := with_iff.1 hc
    exact makeFrom_calls false hI ho hv h
  | makeMoveRvalue y s al =>
    obtain ⟨o, ho, hs, hv⟩ := with_iff.1 hc
    simp only [callsOf, callsOf.of, ho]
    change makeMoveRvalue ty y s al w = _ at h
    unfold makeMoveRvalue at h
    rw [get_ok ho, bind_ok] at h
    have hyn : w.nextVar ≠ o.alloc.self := by have := hI.lt ho; rw [hI.self y o ho]; omega
    have hcond : (o.shape = s ∧ Allocator.eq ⟨al, w.nextVar, false⟩ o.alloc = true) ↔
        o.shape = s ∧ SameAlloc o al := by
      rw [Allocator.eq_iff hyn]; simp [SameAlloc]
    by_cases heq : o.shape = s ∧ SameAlloc o al
    · rw [if_pos (hcond.2 heq)] at h
      rw [if_pos heq]
      exact newCopy_calls hI hdef ho h
    · rw [if_neg fun h => heq (hcond.1 h)] at h
      rw [if_neg heq]
      exact makeFrom_calls false hI ho (hv heq) ((makeFromArray_eq ho s al).symm.trans h)
  | copyRef y src soff x dst doff =>
    obtain ⟨o, ho, h1⟩ := with_iff.1 hc
    obtain ⟨a, ha, hv⟩ := with_iff.1 h1
    exact assignRef_calls true ho ha hv h
  | moveRef y src soff x dst doff =>
    obtain ⟨o, ho, h1⟩ := with_iff.1 hc
    obtain ⟨a, ha, hv⟩ := with_iff.1 h1
    exact assignRef_calls false ho ha hv h
  | forEach x s off f =>
    obtain ⟨a, ha, hv⟩ := with_iff.1 hc
    exact forEachRef_calls ha hv h
  | transform x s off f =>
    obtain ⟨a, ha, hv⟩ := with_iff.1 hc
    exact transformRef_calls ha hv h

end Nda
