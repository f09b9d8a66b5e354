import Verif.Lemmas.ArrayAssign
/-
The effect of the remaining constructors, the assignment operators, `clear`, `swap` and element writes.
-/
namespace Nda
open Spec

variable {V : Type} [Hollow V]

theorem elem_congr {w w' : World V} {x y : Nat} {a o : Arr} (ha : w'.vars x = some a)
    (ho : w.vars y = some o) (hb : a.base = o.base) (hs : a.shape = o.shape) (hh : w'.heap = w.heap)
    (i : Index) : elem w' x i = elem w y i := by
  unfold elem
  rw [get_ok ha, get_ok ho, bind_ok, bind_ok, hb, hs]
  simp only [readAt, World.block, hh]

theorem setVar_eq_self {w : World V} {x : Nat} {a : Arr} (ha : w.vars x = some a) :
    w.setVar x (some a) = w := by
  have : (fun y => if y = x then some a else w.vars y) = w.vars := by
    funext y
    split
    · rename_i h; rw [h, ha]
    · rfl
  unfold World.setVar
  rw [this]

/-! ### Constructors -/

theorem newFillAlloc_ok {ty : Types V} {w : World V} (hI : Inv ty w) (hdef : TypesOk ty)
    {s : Shape} (hs : ShapeOk ty s) (v : V) (al : Nat) :
    ∃ w' a', newFillAlloc ty s v al w = .ok w' ∧ Inv ty w' ∧ Step (· = w.nextVar) w w' ∧
      w'.nextVar = w.nextVar + 1 ∧ w'.vars w.nextVar = some a' ∧ a'.shape = s.resolve ∧
      a'.alloc.arena = al ∧
      NotHollow a' ∧ ∀ i, InBox a'.shape i → elem w' w.nextVar i = .ok v := by
  obtain ⟨w1, a1, e1, hI1, hst1, hnv1, hv1, _, hal1, hh1, _⟩ := newShapeAlloc_ok hI hdef.shape al
  obtain ⟨w2, a2, e2, hI2, hst2, hnv2, hv2, hs2, hal2, hh2, hval2⟩ := assignFill_ok hI1 hv1 hh1 hs v
  refine ⟨w2, a2, ?_, hI2, hst1.trans hst2, by rw [hnv2, hnv1], hv2, hs2,
    (Allocator.idle_arena hal2).trans hal1, hh2, hval2⟩
  unfold newFillAlloc newAlloc
  dsimp only
  rw [e1, bind_ok, e2]

theorem newCopyAlloc_ok {ty : Types V} {w : World V} (hI : Inv ty w) (hdef : TypesOk ty)
    {y : Nat} {o : Arr} (ho : w.vars y = some o) (hsrc : SrcOk ty o) (al : Nat) :
    ∃ w' a', newCopyAlloc ty y al w = .ok w' ∧ Inv ty w' ∧ Step (· = w.nextVar) w w' ∧
      w'.nextVar = w.nextVar + 1 ∧ a'.alloc.arena = al ∧ Received true ty w w' w.nextVar y o a' := by
  obtain ⟨w1, a1, e1, hI1, hst1, hnv1, hv1, _, hal1, hh1, _⟩ := newShapeAlloc_ok hI hdef.shape al
  have hyn : y ≠ w.nextVar := by have := hI.lt ho; omega
  obtain ⟨w2, a2, e2, hI2, hst2, hy2, hnv2, hal2, hr2, _⟩ := assign_ok true hI1 hv1
    (by rw [hst1.vars y hyn]; exact ho) hsrc
  refine ⟨w2, a2, ?_, hI2, hst1.trans (hst2.mono (by simp)), by rw [hnv2, hnv1],
    (Allocator.idle_arena hal2).trans hal1, hr2.var, hr2.shape, hr2.src, ?_⟩
  · unfold newCopyAlloc newAlloc
    dsimp only
    rw [e1, bind_ok]; exact e2
  · intro hk i hi
    rw [hr2.vals hk i hi, hst1.elem hI hyn]

theorem newCopy_ok {ty : Types V} {w : World V} (hI : Inv ty w) (hdef : TypesOk ty)
    {y : Nat} {o : Arr} (ho : w.vars y = some o) (hsrc : SrcOk ty o) :
    ∃ w' a', newCopy ty y w = .ok w' ∧ Inv ty w' ∧ Step (· = w.nextVar) w w' ∧
      w'.nextVar = w.nextVar + 1 ∧ a'.alloc.arena = ty.selectOnCopy o.alloc.arena ∧
      Received true ty w w' w.nextVar y o a' := by
  have hyn : y ≠ w.nextVar := by have := hI.lt ho; omega
  have hI1 : Inv ty (w.push ⟨⟨ty.selectOnCopy o.alloc.arena, w.nextVar, false⟩, none, 0, none, ty.defaultShape⟩) :=
    (hI.push _).close (by rw [push_vars, if_pos rfl]) rfl (Nat.lt_succ_self _) ⟨rfl, rfl, rfl⟩ hdef.shape (Or.inl rfl)
  have hst1 := hI.step_push ⟨⟨ty.selectOnCopy o.alloc.arena, w.nextVar, false⟩, none, 0, none, ty.defaultShape⟩
  obtain ⟨w2, a2, e2, hI2, hst2, hy2, hnv2, hal2, hr2, _⟩ := assign_ok true (x := w.nextVar) hI1
    (by rw [push_vars, if_pos rfl]) (by rw [hst1.vars y hyn]; exact ho) hsrc
  refine ⟨w2, a2, ?_, hI2, hst1.trans (hst2.mono (by simp)), by rw [hnv2]; rfl,
    Allocator.idle_arena hal2, hr2.var, hr2.shape, hr2.src, ?_⟩
  · unfold newCopy
    dsimp only
    rw [get_ok ho, bind_ok]; exact e2
  · intro hk i hi
    rw [hr2.vals hk i hi, hst1.elem hI hyn]

/-- The two move constructors; `c` is the condition under which the memory is taken over. -/
theorem moveInto_ok {ty : Types V} {w : World V} (hI : Inv ty w) (hdef : TypesOk ty)
    {y : Nat} {o : Arr} (ho : w.vars y = some o) (al : Nat) (c : Prop) [Decidable c]
    (hc : c → SameAlloc o al) (hpre : ¬ c → SrcOk ty o) :
    ∃ w' a' o', (if c then swapExceptAllocator w.nextVar y (w.push ⟨⟨al, w.nextVar, false⟩, none, 0, none, ty.defaultShape⟩)
        else setShapeMember w.nextVar o.shape (w.push ⟨⟨al, w.nextVar, false⟩, none, 0, none, ty.defaultShape⟩) >>= fun w' =>
          allocate ty w.nextVar w' >>= transfer false ty w.nextVar y) = .ok w' ∧ Inv ty w' ∧
      Step (fun z => z = w.nextVar ∨ z = y) w w' ∧ w'.nextVar = w.nextVar + 1 ∧ a'.alloc.arena = al ∧
      w'.vars y = some o' ∧ Received false ty w w' w.nextVar y o a' ∧
      (c → a' = { o with alloc := ⟨o.alloc.arena, w.nextVar, false⟩ } ∧
        o' = ⟨o.alloc, none, 0, none, ty.defaultShape⟩ ∧ w'.heap = w.heap ∧
        w'.calls = w.calls ∧ ∀ i, elem w' w.nextVar i = elem w y i) ∧ (¬ c → o' = o ∧ (Injective o.shape → ∀ i, InBox o.shape i → elem w' y i = (elem w y i).map ty.moved)) := by
  have hyn : y ≠ w.nextVar := by have := hI.lt ho; omega
  have hI1 : Inv ty (w.push ⟨⟨al, w.nextVar, false⟩, none, 0, none, ty.defaultShape⟩) :=
    (hI.push _).close (by rw [push_vars, if_pos rfl]) rfl (Nat.lt_succ_self _) ⟨rfl, rfl, rfl⟩ hdef.shape (Or.inl rfl)
  have hst1 := hI.step_push ⟨⟨al, w.nextVar, false⟩, none, 0, none, ty.defaultShape⟩
  have hv1 : (w.push ⟨⟨al, w.nextVar, false⟩, none, 0, none, ty.defaultShape⟩).vars w.nextVar =
      some ⟨⟨al, w.nextVar, false⟩, none, 0, none, ty.defaultShape⟩ := by rw [push_vars, if_pos rfl]
  have ho1 : (w.push ⟨⟨al, w.nextVar, false⟩, none, 0, none, ty.defaultShape⟩).vars y = some o := by
    rw [hst1.vars y hyn]; exact ho
  by_cases h : c
  · rw [if_pos h, swapExceptAllocator_ok hv1 ho1]
    obtain ⟨hal, rfl⟩ := hc h
    have hvx : (((w.push ⟨⟨o.alloc.arena, w.nextVar, false⟩, none, 0, none, ty.defaultShape⟩).setVar w.nextVar
        (some { o with alloc := ⟨o.alloc.arena, w.nextVar, false⟩ })).setVar y
        (some ⟨o.alloc, none, 0, none, ty.defaultShape⟩)).vars w.nextVar =
        some { o with alloc := ⟨o.alloc.arena, w.nextVar, false⟩ } := by
      simp [setVar_vars, Ne.symm hyn]
    refine ⟨_, { o with alloc := ⟨o.alloc.arena, w.nextVar, false⟩ }, _, rfl, ?_,
      ⟨?_, fun _ _ _ _ _ _ => rfl⟩, rfl, rfl, setVar_self _ _ _,
      ⟨hvx, Or.inl rfl, id, ?_⟩, fun _ => ⟨rfl, rfl, rfl, rfl, ?_⟩, fun h' => absurd h h'⟩
    · exact hI1.exchange (al1 := ⟨o.alloc.arena, w.nextVar, false⟩) (al2 := o.alloc) (Ne.symm hyn)
        hv1 ho1 ⟨rfl, rfl, hal, fun _ => rfl⟩ ⟨hI.self y o ho, hal, rfl, fun h => absurd rfl h⟩
        (fun z => rfl) rfl rfl rfl
    · intro z hz
      rw [not_or] at hz
      rw [setVar_vars, if_neg hz.2, setVar_vars, if_neg hz.1, push_vars, if_neg hz.1]
    · intro _ i _
      exact elem_congr hvx ho rfl rfl rfl i
    · intro i
      exact elem_congr hvx ho rfl rfl rfl i
  · rw [if_neg h]
    obtain ⟨w', a', e, h1, h2, h3, h4, h5, h6, h7⟩ := build_transfer false (hI.push _) hv1 rfl rfl rfl
      (Nat.lt_succ_self _) hyn ho1 (hpre h)
    refine ⟨w', a', o, e, h1, (hst1.mono fun z hz => Or.inl hz).trans (h2.mono (by simp)), by rw [h4]; rfl,
      Allocator.idle_arena h5, h3, ⟨h6.var, h6.shape, h6.src, ?_⟩, fun h' => absurd h' h, fun _ => ⟨rfl, ?_⟩⟩
    · intro hk i hi
      rw [h6.vals hk i hi, hst1.elem hI hyn]
    · intro hi i hb
      rw [h7 rfl hi i hb, hst1.elem hI hyn]

theorem newMove_ok {ty : Types V} {w : World V} (hI : Inv ty w) (hdef : TypesOk ty)
    {y : Nat} {o : Arr} (ho : w.vars y = some o) (hpre : ¬ TakesNew ty o → SrcOk ty o) :
    ∃ w' a' o', newMove ty y w = .ok w' ∧ Inv ty w' ∧
      Step (fun z => z = w.nextVar ∨ z = y) w w' ∧ w'.nextVar = w.nextVar + 1 ∧
      a'.alloc.arena = allocatorForMove ty o ∧
      w'.vars y = some o' ∧ Received false ty w w' w.nextVar y o a' ∧
      (TakesNew ty o → a' = { o with alloc := ⟨o.alloc.arena, w.nextVar, false⟩ } ∧
        o' = ⟨o.alloc, none, 0, none, ty.defaultShape⟩ ∧ w'.heap = w.heap ∧
        w'.calls = w.calls ∧ ∀ i, elem w' w.nextVar i = elem w y i) ∧ (¬ TakesNew ty o → o' = o ∧ (Injective o.shape → ∀ i, InBox o.shape i → elem w' y i = (elem w y i).map ty.moved)) := by
  have hyn : w.nextVar ≠ o.alloc.self := by have := hI.lt ho; rw [hI.self y o ho]; omega
  have hcond : (ty.propagateMove || Allocator.eq ⟨allocatorForMove ty o, w.nextVar, false⟩ o.alloc) = true ↔
      TakesNew ty o := by
    rw [Bool.or_eq_true, Allocator.eq_iff hyn]
    unfold TakesNew allocatorForMove
    cases ty.propagateMove <;> simp
  have := moveInto_ok hI hdef ho (allocatorForMove ty o)
    ((ty.propagateMove || Allocator.eq ⟨allocatorForMove ty o, w.nextVar, false⟩ o.alloc) = true) (by
      rw [hcond]
      rintro (h | h)
      · exact ⟨hI.plain hdef (Or.inl h) ho, by unfold allocatorForMove; rw [if_pos h]⟩
      · refine ⟨h.1, ?_⟩
        unfold allocatorForMove
        split
        · rfl
        · exact h.2) (by rw [hcond]; exact hpre)
  simp only [hcond] at this
  obtain ⟨w', a', o', e, h⟩ := this
  refine ⟨w', a', o', ?_, h⟩
  rw [← e]
  unfold newMove
  dsimp only
  rw [get_ok ho, bind_ok]
  by_cases hc : TakesNew ty o
  · rw [if_pos (hcond.2 hc), if_pos hc]
  · rw [if_neg (fun h => hc (hcond.1 h)), if_neg hc]; rfl

theorem newMoveAlloc_ok {ty : Types V} {w : World V} (hI : Inv ty w) (hdef : TypesOk ty)
    {y : Nat} {o : Arr} (ho : w.vars y = some o) (al : Nat) (hpre : ¬ SameAlloc o al → SrcOk ty o) :
    ∃ w' a' o', newMoveAlloc ty y al w = .ok w' ∧ Inv ty w' ∧
      Step (fun z => z = w.nextVar ∨ z = y) w w' ∧ w'.nextVar = w.nextVar + 1 ∧
      a'.alloc.arena = al ∧
      w'.vars y = some o' ∧ Received false ty w w' w.nextVar y o a' ∧
      (SameAlloc o al → a' = { o with alloc := ⟨o.alloc.arena, w.nextVar, false⟩ } ∧
        o' = ⟨o.alloc, none, 0, none, ty.defaultShape⟩ ∧ w'.heap = w.heap ∧
        w'.calls = w.calls ∧ ∀ i, elem w' w.nextVar i = elem w y i) ∧ (¬ SameAlloc o al → o' = o ∧ (Injective o.shape → ∀ i, InBox o.shape i → elem w' y i = (elem w y i).map ty.moved)) := by
  obtain ⟨w', a', o', e, h⟩ := moveInto_ok hI hdef ho al (SameAlloc o al) id hpre
  refine ⟨w', a', o', ?_, h⟩
  rw [← e]
  unfold newMoveAlloc
  dsimp only
  rw [get_ok ho, bind_ok]
  have hyn : w.nextVar ≠ o.alloc.self := by have := hI.lt ho; rw [hI.self y o ho]; omega
  have hcond : Allocator.eq ⟨al, w.nextVar, false⟩ o.alloc = true ↔ SameAlloc o al := by
    rw [Allocator.eq_iff hyn]; simp [SameAlloc]
  by_cases hc : SameAlloc o al
  · rw [if_pos (hcond.2 hc), if_pos hc]
  · rw [if_neg (fun h => hc (hcond.1 h)), if_neg hc]; rfl

/-! ### Assignment operators -/

theorem copyAssignOp_ok {ty : Types V} {w : World V} {x y : Nat} {a o : Arr} (hI : Inv ty w)
    (hdef : TypesOk ty)
    (ha : w.vars x = some a) (ho : w.vars y = some o) (hsrc : SrcOk ty o) :
    ∃ w' a', copyAssignOp ty x y w = .ok w' ∧ Inv ty w' ∧ Step (· = x) w w' ∧
      (y ≠ x → w'.vars y = some o) ∧ w'.nextVar = w.nextVar ∧ Received true ty w w' x y o a' := by
  by_cases hbb : a.base = o.base
  · -- the same as `assign`
    obtain ⟨w', a', e, h1, h2, h3, h4, h5, h6, _⟩ := assign_ok true hI ha ho hsrc
    refine ⟨w', a', ?_, h1, h2.mono (by simp), h3, h4, h6⟩
    rw [← e]
    show _ = assignCopy ty x y w
    unfold copyAssignOp assignCopy
    rw [get_ok ha, get_ok ho]
    show (if a.base = o.base then _ else _) = if a.base = o.base then _ else _
    rw [if_pos hbb, if_pos hbb]
  · have hyx : y ≠ x := by
      rintro rfl
      rw [ha] at ho
      simp only [Option.some.injEq] at ho
      exact hbb (by rw [ho])
    have hpre : ∃ w1 a1, (if ty.propagateCopy then do
          let w ← if !a.alloc.eq o.alloc then deallocate ty x w else .ok w
          let a ← w.get x
          .ok (w.setVar x (some { a with alloc := { a.alloc with arena := o.alloc.arena } }))
        else .ok w) = .ok w1 ∧ Inv ty w1 ∧ Step (· = x) w w1 ∧ w1.vars x = some a1 ∧
        w1.nextVar = w.nextVar := by
      split
      · by_cases hal : (!a.alloc.eq o.alloc) = true
        · rw [if_pos hal]
          obtain ⟨w1, a1, e1, hI1, hv1, hn1, hal1, hsh1, hnv1, hst1⟩ := deallocate_ok ty hI ha
          have ha1 : w1.vars x = some a1 := by rw [hv1]; simp
          have hx := hI.lt ha
          rw [e1, bind_ok]
          dsimp only
          rw [get_ok ha1, bind_ok]
          refine ⟨_, _, rfl, ?_, hst1.trans (step_setVar _ _ _), setVar_self _ _ _, hnv1⟩
          have hsd : ShapeOk ty a1.shape ∧ (Bare ty a1.shape) := by
            rcases hsh1 with ⟨hb, rfl⟩ | hs
            · have hg := hI.good x a1 ha
              refine ⟨hg.shape, ?_⟩
              rcases hg.own with h | ⟨b, blk, hh, _⟩
              · exact h.2
              · rw [hh.base] at hb; simp at hb
            · rw [hs]; exact ⟨hdef.shape, Or.inl rfl⟩
          have hI1' := hI1.close ha1 (by rw [hal1]; exact hI.self x a ha) (by omega) hn1 hsd.1 hsd.2
          exact hI1'.set_null ha1 hn1 ⟨hn1.buffer, hn1.base, hn1.idle⟩
            (by dsimp only; rw [hal1]; exact hI.self x a ha) hsd.1 hsd.2
        · rw [if_neg hal, bind_ok]
          dsimp only
          rw [get_ok ha, bind_ok]
          have hal := ((Allocator.eq_iff (al := a.alloc) (al' := o.alloc) (by
            rw [hI.self x a ha, hI.self y o ho]; exact Ne.symm hyx)).1 (by simpa using hal)).2.2
          have : ({ a with alloc := { a.alloc with arena := o.alloc.arena } } : Arr) = a := by
            dsimp only; rw [← hal]
          rw [this, setVar_eq_self ha]
          exact ⟨w, a, rfl, hI, Step.refl _ _, ha, rfl⟩
      · exact ⟨w, a, rfl, hI, Step.refl _ _, ha, rfl⟩
    obtain ⟨w1, a1, e1, hI1, hst1, ha1, hnv1⟩ := hpre
    obtain ⟨w2, a2, e2, hI2, hst2, hy2, hnv2, hal2, hr2, _⟩ := assign_ok true hI1 ha1
      (by rw [hst1.vars y hyx]; exact ho) hsrc
    refine ⟨w2, a2, ?_, hI2, hst1.trans (hst2.mono (by simp)), hy2, by rw [hnv2, hnv1],
      hr2.var, hr2.shape, hr2.src, ?_⟩
    · unfold copyAssignOp
      rw [get_ok ha, get_ok ho]
      show (if a.base = o.base then _ else _) = _
      rw [if_neg hbb]
      have e3 : ((if ty.propagateCopy then do
          let w ← if !a.alloc.eq o.alloc then deallocate ty x w else .ok w
          let a ← w.get x
          .ok (w.setVar x (some { a with alloc := { a.alloc with arena := o.alloc.arena } }))
        else .ok w) >>= assignCopy ty x y) = .ok w2 := by
        rw [e1, bind_ok]; exact e2
      rw [← e3]
      cases hp : ty.propagateCopy
      · rfl
      · simp only [if_true]
        by_cases hal : (!a.alloc.eq o.alloc) = true
        · rw [if_pos hal, if_pos hal]
          cases hd : deallocate ty x w with
          | error f => rfl
          | ok w3 =>
            simp only [bind_ok]
            cases hg : w3.get x with
            | error f => rfl
            | ok a3 => rfl
        · rw [if_neg hal, if_neg hal]
          simp only [bind_ok, get_ok ha]
    · intro hk i hi
      rw [hr2.vals hk i hi, hst1.elem hI hyx]

theorem MoveOk.of_src {ty : Types V} {a o : Arr} (h : SrcOk ty o) : MoveOk ty a o :=
  ⟨fun _ ho _ => (h ho).1, fun _ _ => h⟩

theorem moveAssignOp_ok {ty : Types V} {w : World V} {x y : Nat} {a o : Arr} (hI : Inv ty w)
    (hdef : TypesOk ty)
    (ha : w.vars x = some a) (ho : w.vars y = some o) (hpre : MoveOk ty a o) :
    ∃ w' a' o', moveAssignOp ty x y w = .ok w' ∧ Inv ty w' ∧ Step (fun z => z = x ∨ z = y) w w' ∧
      w'.nextVar = w.nextVar ∧ w'.vars y = some o' ∧ Received false ty w w' x y o a' ∧
      (a.base ≠ o.base → TakesAssign ty a o →
        a' = { o with alloc := ⟨o.alloc.arena, x, false⟩ } ∧
        o' = { a with alloc := ⟨a.alloc.arena, y, false⟩ } ∧
        w'.heap = w.heap ∧ w'.calls = w.calls ∧
        ∀ i, elem w' x i = elem w y i) ∧
      (a.base = none → o.base = none → a' = { a with shape := o.shape } ∧ (x ≠ y → o' = { o with shape := a.shape }) ∧
        w'.heap = w.heap ∧ w'.calls = w.calls) ∧
      (a.base ≠ o.base → ¬ TakesAssign ty a o → o' = o ∧ (Injective o.shape → ∀ i, InBox o.shape i → elem w' y i = (elem w y i).map ty.moved)) := by
  have hg := hI.good x a ha
  have hog := hI.good y o ho
  have e0 : moveAssignOp ty x y w = (if a.base = o.base then
      if a.base.isSome then assert ty (decide (a.shape = o.shape)) w
      else
        let w := w.setVar x (some { a with shape := o.shape })
        let w := w.setVar y (some { o with shape := a.shape })
        w.get x >>= fun a => assert ty a.shape.empty w
    else if ty.propagateMove then
      swapAllocator x y w >>= swapExceptAllocator x y
    else if a.alloc.eq o.alloc then swapExceptAllocator x y w
    else assignMove ty x y w) := by
    unfold moveAssignOp
    rw [get_ok ha, get_ok ho]
    rfl
  rw [e0]
  clear e0
  by_cases hbb : a.base = o.base
  · rw [if_pos hbb]
    by_cases hbn : a.base = none
    · have hob : o.base = none := hbb ▸ hbn
      rw [if_neg (by simp [hbn])]
      dsimp only
      by_cases hxy : x = y
      · subst hxy
        rw [ha] at ho
        simp only [Option.some.injEq] at ho
        subst ho
        rw [setVar_eq_self (w := w) ha, setVar_eq_self (w := w) ha, get_ok ha, bind_ok]
        refine ⟨w, a, a, assert_ok (fun hd => (empty_iff_not_pos hg.shape.nonNeg).2 (hpre.null hbn hbn hd)) _,
          hI, Step.refl _ _, rfl, ha, ⟨ha, Or.inl rfl, id, fun _ _ _ => rfl⟩, fun h => absurd rfl h,
          fun _ _ => ⟨rfl, fun h => absurd rfl h, rfl, rfl⟩, fun h => absurd rfl h⟩
      · have hvx : ((w.setVar x (some { a with shape := o.shape })).setVar y
            (some { o with shape := a.shape })).vars x = some { a with shape := o.shape } := by
          simp [setVar_vars, hxy]
        rw [get_ok hvx, bind_ok]
        have hna := hg.null hbn
        have hno := hog.null hob
        have hda : Bare ty a.shape := by
          rcases hg.own with h | ⟨b, blk, hh, _⟩
          · exact h.2
          · rw [hh.base] at hbn; simp at hbn
        have hdo : Bare ty o.shape := by
          rcases hog.own with h | ⟨b, blk, hh, _⟩
          · exact h.2
          · rw [hh.base] at hob; simp at hob
        have hI1 : Inv ty (w.setVar x (some { a with shape := o.shape })) :=
          hI.set_null ha hna ⟨hna.buffer, hna.base, hna.idle⟩ (hI.self x a ha) hog.shape hdo
        have ho1 : (w.setVar x (some { a with shape := o.shape })).vars y = some o := by
          rw [setVar_vars, if_neg (Ne.symm hxy)]; exact ho
        have hI2 := hI1.set_null (a' := { o with shape := a.shape }) ho1 hno ⟨hno.buffer, hno.base, hno.idle⟩
          (hI.self y o ho) hg.shape hda
        refine ⟨_, _, _, assert_ok (fun hd => (empty_iff_not_pos hog.shape.nonNeg).2 (hpre.null hbn hob hd)) _,
          hI2, ?_, rfl, setVar_self _ _ _, ⟨hvx, Or.inl rfl, fun h _ => h hob, ?_⟩, fun h => absurd hbb h,
          fun _ _ => ⟨rfl, fun _ => rfl, rfl, rfl⟩, fun h => absurd hbb h⟩
        · refine ⟨fun z hz => ?_, fun _ _ _ _ _ _ => rfl⟩
          rw [not_or] at hz
          rw [setVar_vars, if_neg hz.2, setVar_vars, if_neg hz.1]
        · intro _ i hi
          exact elem_congr hvx ho hbb rfl rfl i
    · rw [if_pos (by simp [Option.isSome_iff_ne_none, hbn])]
      have hxy := hI.base_inj ha ho hbb hbn
      subst hxy
      rw [ha] at ho
      simp only [Option.some.injEq] at ho
      subst ho
      exact ⟨w, a, a, assert_ok (by simp) _, hI, Step.refl _ _, rfl, ha,
        ⟨ha, Or.inl rfl, id, fun _ _ _ => rfl⟩, fun h => absurd rfl h, fun h => absurd h hbn,
        fun h => absurd rfl h⟩
  · rw [if_neg hbb]
    have hxy : x ≠ y := by
      rintro rfl
      rw [ha] at ho
      simp only [Option.some.injEq] at ho
      exact hbb (by rw [ho])
    have hnn : a.base = none → o.base = none → False := fun h1 h2 => hbb (h1.trans h2.symm)
    have ea : a.alloc.allocated = false → o.alloc.allocated = false →
        (⟨o.alloc.arena, a.alloc.self, a.alloc.allocated⟩ : Allocator) = ⟨o.alloc.arena, x, false⟩ := by
      intro h1 h2; rw [h1, hI.self x a ha]
    have eo : a.alloc.allocated = false → o.alloc.allocated = false →
        (⟨a.alloc.arena, o.alloc.self, o.alloc.allocated⟩ : Allocator) = ⟨a.alloc.arena, y, false⟩ := by
      intro h1 h2; rw [h2, hI.self y o ho]
    by_cases hp : ty.propagateMove = true
    · rw [if_pos hp]
      have pa := hI.plain hdef (Or.inl hp) ha
      have po := hI.plain hdef (Or.inl hp) ho
      obtain ⟨w', e, hv, hh, hnb, hnv, hca⟩ := swapBoth_ok hxy ha ho
      rw [ea pa po, eo pa po] at hv
      have hvx : w'.vars x = some { o with alloc := ⟨o.alloc.arena, x, false⟩ } := by
        rw [hv, if_neg hxy, if_pos rfl]
      refine ⟨w', _, _, e, hI.exchange hxy ha ho
        (al1 := ⟨o.alloc.arena, x, false⟩) (al2 := ⟨a.alloc.arena, y, false⟩) ⟨rfl, rfl, po, fun _ => rfl⟩ ⟨rfl, rfl, pa, fun _ => rfl⟩
        hv hh hnb hnv, ⟨?_, ?_⟩, hnv, by rw [hv, if_pos rfl], ⟨hvx, Or.inl rfl, id, ?_⟩, ?_, ?_, ?_⟩
      · intro z hz
        rw [not_or] at hz
        rw [hv, if_neg hz.2, if_neg hz.1]
      · intro _ _ _ _ _ _; rw [hh]
      · intro _ i _; exact elem_congr hvx ho rfl rfl hh i
      · intro _ _
        exact ⟨rfl, rfl, hh, hca,
          fun i => elem_congr hvx ho rfl rfl hh i⟩
      · intro h1 h2; exact absurd (hnn h1 h2) id
      · intro _ h; exact absurd (Or.inl hp) h
    · rw [if_neg hp]
      by_cases hal : a.alloc.eq o.alloc = true
      · rw [if_pos hal, swapExceptAllocator_ok ha ho]
        obtain ⟨pa, po, har⟩ := (Allocator.eq_iff (by
          rw [hI.self x a ha, hI.self y o ho]; exact hxy)).1 hal
        have e1 : a.alloc = ⟨o.alloc.arena, x, false⟩ := by
          rw [← ea pa po, ← har]
        have e2 : o.alloc = ⟨a.alloc.arena, y, false⟩ := by
          rw [← eo pa po, har]
        rw [show ({ o with alloc := a.alloc } : Arr) = { o with alloc := ⟨o.alloc.arena, x, false⟩ } by rw [← e1],
          show ({ a with alloc := o.alloc } : Arr) = { a with alloc := ⟨a.alloc.arena, y, false⟩ } by rw [← e2]]
        have hv : ∀ z, ((w.setVar x (some { o with alloc := ⟨o.alloc.arena, x, false⟩ })).setVar y
            (some { a with alloc := ⟨a.alloc.arena, y, false⟩ })).vars z =
          if z = y then some { a with alloc := ⟨a.alloc.arena, y, false⟩ }
          else if z = x then some { o with alloc := ⟨o.alloc.arena, x, false⟩ } else w.vars z := fun _ => rfl
        have hvx : ((w.setVar x (some { o with alloc := ⟨o.alloc.arena, x, false⟩ })).setVar y
            (some { a with alloc := ⟨a.alloc.arena, y, false⟩ })).vars x =
            some { o with alloc := ⟨o.alloc.arena, x, false⟩ } := by
          rw [hv, if_neg hxy, if_pos rfl]
        refine ⟨_, _, _, rfl, hI.exchange hxy ha ho
        (al1 := ⟨o.alloc.arena, x, false⟩) (al2 := ⟨a.alloc.arena, y, false⟩) ⟨rfl, rfl, po, fun _ => rfl⟩ ⟨rfl, rfl, pa, fun _ => rfl⟩
          hv rfl rfl rfl, ⟨?_, ?_⟩, rfl, setVar_self _ _ _, ⟨hvx, Or.inl rfl, id, ?_⟩, ?_, ?_, ?_⟩
        · intro z hz
          rw [not_or] at hz
          rw [hv, if_neg hz.2, if_neg hz.1]
        · intro _ _ _ _ _ _; rfl
        · intro _ i _; exact elem_congr hvx ho rfl rfl rfl i
        · intro _ _
          exact ⟨rfl, rfl, rfl, rfl,
            fun i => elem_congr hvx ho rfl rfl rfl i⟩
        · intro h1 h2; exact absurd (hnn h1 h2) id
        · intro _ h; exact absurd (Or.inr ⟨pa, po, har⟩) h
      · rw [if_neg hal]
        have hnt : ¬ TakesAssign ty a o := by
          rintro (h | h)
          · exact hp h
          · exact hal ((Allocator.eq_iff (by rw [hI.self x a ha, hI.self y o ho]; exact hxy)).2 h)
        obtain ⟨w', a', e, h1, h2, h3, h4, h5, h6, h7⟩ := assign_ok false hI ha ho (hpre.src hbb hnt)
        exact ⟨w', a', o, e, h1, h2.mono (by simp), h4, h3 (Ne.symm hxy), h6,
          fun _ h => absurd h hnt, fun h1 h2 => absurd (hnn h1 h2) id, fun _ _ => ⟨rfl, h7 hbb rfl⟩⟩

/-! ### `clear` and element writes -/

theorem clear_ok {ty : Types V} {w : World V} {x : Nat} {a : Arr} (hI : Inv ty w)
    (hdef : TypesOk ty) (ha : w.vars x = some a) :
    ∃ w' a', clear ty x w = .ok w' ∧ Inv ty w' ∧ Step (· = x) w w' ∧
      w'.nextVar = w.nextVar ∧ w'.vars x = some a' ∧ a'.shape = ty.defaultShape.resolve ∧
      a'.alloc.idle = a.alloc.idle ∧ NotHollow a' ∧ ∀ i, InBox a'.shape i → elem w' x i = .ok ty.defaultValue := by
  obtain ⟨w1, a1, e1, hI1, hv1, hn1, hal1, _, hnv1, hst1⟩ := deallocate_ok ty hI ha
  have ha1 : w1.vars x = some a1 := by rw [hv1]; simp
  have hx := hI.lt ha
  obtain ⟨w', a', e, h1, h2, h3, h4, h5, h6, h7, h8⟩ := build_fill
    (w := w1.setVar x (some { a1 with shape := ty.defaultShape })) (x := x)
    (hI1.of_vars (fun y hy => by rw [setVar_vars, if_neg hy]) rfl rfl (fun _ _ h => h))
    (setVar_self _ _ _) hn1.buffer hn1.idle (by dsimp only; rw [hal1]; exact hI.self x a ha) hdef.shape (by show x < w1.nextVar; omega) .defaultConstruct ty.defaultValue
  refine ⟨w', a', ?_, h1, hst1.trans ((step_setVar _ _ _).trans h2), by rw [h3]; exact hnv1, h4, h5,
    by rw [h6]; dsimp only; rw [hal1]; rfl, h7, h8⟩
  unfold clear
  rw [e1, bind_ok, setShapeMember_ok ha1, bind_ok]
  exact e

theorem write_ok {ty : Types V} {w : World V} {x : Nat} {a : Arr} (hI : Inv ty w)
    (ha : w.vars x = some a) (hb : a.base ≠ none) {i : Index} (hi : InBox a.shape i) (v : V) :
    ∃ w', write x i v w = .ok w' ∧ Inv ty w' ∧ Step (· = x) w w' ∧ w'.vars = w.vars ∧
      w'.nextVar = w.nextVar ∧
      ∀ j, InBox a.shape j → elem w' x j =
        if offsetOf a.shape j = offsetOf a.shape i then .ok v else elem w x j := by
  obtain ⟨b, blk, hh, hl⟩ := (hI.good x a ha).full hb
  have hr := elem_range hi
  obtain ⟨w', e, s, _, hb'⟩ := assignAt_ok hh.heap hr.1 (by rw [hh.size]; exact hr.2)
    (by rw [hl, cnt_pos_iff]; exact ⟨i, hi, rfl⟩) .copyAssign v
  refine ⟨w', ?_, ?_, ⟨fun y _ => by rw [s.vars], ?_⟩, s.vars, s.nextVar, ?_⟩
  · unfold write
    rw [get_ok ha, bind_ok, hh.base]
    simp only [flatOffset_eq]
    exact e
  · apply hI.of_skel s.vars s.nextVar s.nextBlock
    intro c
    by_cases hc : c = b
    · subst hc
      rw [skel_some hb', skel_some hh.heap]
    · exact s.skel hc
  · intro y a2 c hy ha2 hc
    apply s.heap
    rintro rfl
    exact hy (hI.disj y x a2 a c 0 0 ha2 ha hc hh.buffer)
  · intro j hj
    rw [elem_holds (by rw [s.vars]; exact ha) hh.base hb' hh.size hl hj,
      elem_holds ha hh.base hh.heap hh.size hl hj]
    dsimp only
    by_cases h : offsetOf a.shape j = offsetOf a.shape i
    · rw [if_pos (by omega), if_pos h]
    · rw [if_neg (by omega), if_neg h]

/-! ### `swap` -/

/-- Handing elements on. -/
theorem Received.trans {ty : Types V} {w0 w1 w1' w2 : World V} {x y n : Nat} {o an a' : Arr}
    (h1 : Received false ty w0 w1 n y o an) (h2 : Received false ty w1' w2 x n an a')
    (he : ∀ i, elem w1' n i = elem w1 n i) (hsrc : SrcOk ty o)
    (hkn : o.base ≠ none → ∀ d ∈ o.shape, Known d) :
    Received false ty w0 w2 x y o a' := by
  have hres : o.shape.resolve.resolve = o.shape.resolve := resolve_of_known (resolve_known _)
  have hshape : a'.shape = o.shape ∨ (o.base = none ∧ a'.shape = o.shape.resolve) := by
    rcases h1.shape with e1 | ⟨b1, e1⟩ <;> rcases h2.shape with e2 | ⟨b2, e2⟩
    · exact Or.inl (e2.trans e1)
    · by_cases hb : o.base = none
      · exact Or.inr ⟨hb, by rw [e2, e1]⟩
      · left; rw [e2, e1, resolve_of_known (hkn hb)]
    · exact Or.inr ⟨b1, e2.trans e1⟩
    · exact Or.inr ⟨b1, by rw [e2, e1, hres]⟩
  refine ⟨h2.var, hshape, fun h => h2.src (h1.src h), ?_⟩
  intro hk i hi
  have hk : Injective o.shape := by simpa using hk
  have hp := pos_of_inBox hi
  have hob : o.base ≠ none := by
    intro hb
    refine (hsrc hb).1 ?_
    rcases hshape with h | ⟨_, h⟩
    · rwa [h] at hp
    · rw [h, resolve_pos] at hp; exact hp
  have e1 : an.shape = o.shape := by
    rcases h1.shape with h | h
    · exact h
    · exact absurd h.1 hob
  have e2 : a'.shape = an.shape := by
    rcases hshape with h | h
    · rw [h, e1]
    · exact absurd h.1 hob
  rw [h2.vals (Or.inr (by rw [e1]; exact hk)) i hi, he, h1.vals (Or.inr hk) i (by rwa [← e2])]

end Nda
