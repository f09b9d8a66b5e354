import Verif.Model.ElemRef
import Verif.Lemmas.ArrayThrow
import Verif.Props.Array
import Verif.Props.ArrayViews
/-
C75: passing an element of an array to functions that take a value by reference.
-/
namespace Nda
open Spec

variable {V : Type}

theorem elemAddr_ok {w : World V} {y : Nat} {o : Arr} {b : Nat} {p : Int} (ho : w.vars y = some o) (hb : o.base = some (b, p)) (i : Index) :
    elemAddr w y i = .ok (b, p + o.shape.flatOffset i) := by
  unfold elemAddr
  rw [get_ok ho, bind_ok, hb]

theorem elem_eq_read {w : World V} {y : Nat} {o : Arr} {b : Nat} {p : Int} (ho : w.vars y = some o) (hb : o.base = some (b, p)) (i : Index) :
    elem w y i = readAt w b (p + o.shape.flatOffset i) := by
  unfold elem
  rw [get_ok ho, bind_ok, hb]

theorem constructAt_other {c : Call} {b bs : Nat} (hne : bs ≠ b) {p : Int} {v : V} {w w' : World V} (h : constructAt c b p v w = .ok w') :
    w'.heap bs = w.heap bs ∧ w'.vars = w.vars := by
  unfold constructAt at h
  cases hb : w.block b p with
  | error f => rw [hb] at h; simp [bind, Except.bind] at h
  | ok blk =>
    rw [hb, bind_ok] at h
    simp only [Except.ok.injEq] at h
    subst h
    exact ⟨by simp [setBlock_heap, hne], rfl⟩

/-- The loop of `construct(init)` with `init` outside of the memory that is being constructed. -/
theorem construct_ref_loop {b bs : Nat} (hne : bs ≠ b) {q : Int} {v : V} (l : List Int) (w : World V) (h : readAt w bs q = .ok v) :
    l.foldlM (fun w p => copyConstructAt bs b (q, p) w) w = l.foldlM (fun w p => constructAt .copyConstruct b p v w) w := by
  induction l generalizing w with
  | nil => rfl
  | cons p l ih =>
    rw [List.foldlM_cons, List.foldlM_cons]
    have e : copyConstructAt bs b (q, p) w = constructAt .copyConstruct b p v w := by
      unfold copyConstructAt
      rw [h, bind_ok]
    rw [e]
    cases hc : constructAt .copyConstruct b p v w with
    | error f => rfl
    | ok w' =>
      rw [bind_ok, bind_ok]
      apply ih
      rw [← h]
      unfold readAt World.block
      rw [(constructAt_other hne hc).1]

theorem construct_loop_same {b : Nat} {c : Call} {v : V} (l : List Int) (w w' : World V)
    (h : l.foldlM (fun w p => constructAt c b p v w) w = .ok w') : w'.vars = w.vars ∧ ∀ bs, bs ≠ b → w'.heap bs = w.heap bs := by
  induction l generalizing w with
  | nil =>
    simp only [List.foldlM_nil] at h
    cases h
    exact ⟨rfl, fun _ _ => rfl⟩
  | cons p l ih =>
    rw [List.foldlM_cons] at h
    cases hc : constructAt c b p v w with
    | error f => rw [hc] at h; simp [bind, Except.bind] at h
    | ok w1 =>
      rw [hc, bind_ok] at h
      obtain ⟨h1, h2⟩ := ih w1 h
      have hv : w1.vars = w.vars := by
        unfold constructAt at hc
        cases hb : w.block b p with
        | error f => rw [hb] at hc; simp [bind, Except.bind] at hc
        | ok blk =>
          rw [hb, bind_ok] at hc
          simp only [Except.ok.injEq] at hc
          subst hc
          rfl
      exact ⟨h1.trans hv, fun bs hbs => (h2 bs hbs).trans (constructAt_other hbs hc).1⟩

/-- The state before `construct` in `assign`. -/
def prepare (ty : Types V) (x : Nat) (a : Arr) (s : Shape) (w : World V) : Except Fault (World V) :=
  if a.shape = s.resolve then destroy ty x w
  else deallocate ty x w >>= fun w => setShapeMember x s.resolve w >>= fun w => allocate ty x w

theorem assignFill_prepare {ty : Types V} {x : Nat} {a : Arr} {w : World V} (ha : w.vars x = some a) (s : Shape) (v : V) :
    assignFill ty x s v w = prepare ty x a s w >>= construct ty x .copyConstruct v := by
  unfold assignFill prepare
  rw [get_ok ha, bind_ok]
  dsimp only
  split <;> simp only [bind_assoc]

theorem assignFillRef_prepare {ty : Types V} {x : Nat} {a : Arr} {w : World V} (ha : w.vars x = some a) (s : Shape) (p : Nat × Int) :
    assignFillRef ty x s p w = prepare ty x a s w >>= constructRef ty x p := by
  unfold assignFillRef prepare
  rw [get_ok ha, bind_ok]
  dsimp only
  split <;> simp only [bind_assoc]

/-- C75: assigning an element of another array by reference is assigning its value. -/
theorem C75_other (ty : Types V) (hdef : TypesOk ty) (w : World V) (hw : Reachable ty w) (x y : Nat) (a o : Arr) (hxy : x ≠ y)
    (ha : w.vars x = some a) (hh : NotHollow a) (ho : w.vars y = some o) (hob : o.base ≠ none) (s : Shape) (hs : ShapeOk ty s)
    (i : Index) (hi : InBox o.shape i) :
    ∃ v, elem w y i = .ok v ∧ assignElem ty x s y i w = exec ty (.assignFill x s v) w := by
  have hI := hw.inv hdef
  obtain ⟨v, hv⟩ := (hI.good y o ho).elem_ok ho hob hi
  refine ⟨v, hv, ?_⟩
  obtain ⟨c, p, hop⟩ : ∃ c p, o.base = some (c, p) := by
    cases h : o.base with
    | none => exact absurd h hob
    | some q => exact ⟨q.1, q.2, rfl⟩
  obtain ⟨w', a', e, hI', hst, -, ha', -, -, -, -⟩ := assignFill_ok hI ha hh hs v
  show _ = assignFill ty x s v w
  unfold assignElem
  rw [elemAddr_ok ho hop, bind_ok]
  rw [elem_eq_read ho hop] at hv
  rw [assignFill_prepare ha] at e ⊢
  rw [assignFillRef_prepare ha]
  cases hprep : prepare ty x a s w with
  | error f => rfl
  | ok w1 =>
    rw [hprep, bind_ok] at e
    rw [bind_ok, bind_ok]
    unfold constructRef construct
    unfold construct at e
    cases hg : w1.get x with
    | error f => rfl
    | ok a1 =>
      rw [hg, bind_ok] at e
      rw [bind_ok, bind_ok]
      cases has : assert ty (a1.base.isSome || a1.shape.empty) w1 with
      | error f => rfl
      | ok w2 =>
        rw [has, bind_ok] at e
        rw [bind_ok, bind_ok]
        cases hb : a1.base with
        | none => rfl
        | some q =>
          rw [hb] at e
          dsimp only at e ⊢
          have hw2 : w2 = w1 := by
            unfold assert check at has
            split at has
            · simpa using has.symm
            · simp at has
          subst hw2
          obtain ⟨hvars, hheap⟩ := construct_loop_same _ _ _ e
          have hx' : w'.vars x = some a1 := by
            rw [hvars]
            unfold World.get at hg
            split at hg
            · rename_i a2 h2
              simp only [Except.ok.injEq] at hg
              rw [h2, hg]
            · simp at hg
          obtain ⟨b1, blk1, hh1, -⟩ := (hI'.good x a1 hx').full (by rw [hb]; simp)
          obtain ⟨c1, cblk, hc1, -⟩ := (hI.good y o ho).full hob
          have e1 := hh1.base
          rw [hb] at e1
          have e2 := hc1.base
          rw [hop] at e2
          simp only [Option.some.injEq, Prod.mk.injEq] at e1 e2
          have hcq : c ≠ q.1 := by
            intro hcq
            have hy' : w'.vars y = some o := by rw [hst.vars y (Ne.symm hxy)]; exact ho
            refine hxy (hI'.disj x y a1 o q.1 0 0 hx' hy' ?_ ?_)
            · rw [hh1.buffer]; rw [e1]
            · rw [hc1.buffer, ← hcq, e2.1]
          refine construct_ref_loop hcq _ _ ?_
          rw [← hv]
          unfold readAt World.block
          rw [← hheap c hcq, hst.heap y o c (Ne.symm hxy) ho (by rw [hc1.buffer, e2.1])]

/-- C75: so does the constructor of a new array, for elements of all arrays. -/
theorem C75_new (ty : Types V) (hdef : TypesOk ty) (w : World V) (hw : Reachable ty w) (y : Nat) (o : Arr)
    (ho : w.vars y = some o) (hob : o.base ≠ none) (s : Shape) (hs : ShapeOk ty s) (i : Index) (hi : InBox o.shape i) (al : Nat) :
    ∃ v, elem w y i = .ok v ∧ newElemAlloc ty s y i al w = exec ty (.newFillAlloc s v al) w := by
  have hI := hw.inv hdef
  have hyn : y ≠ w.nextVar := by have := hI.lt ho; omega
  obtain ⟨w1, a1, e1, hI1, hst1, _, hv1, hsh1, _, hh1, _⟩ := newShapeAlloc_ok hI hdef.shape al
  have hw1 : Reachable ty w1 := hw.exec (c := .newAlloc al) trivial e1
  have ho1 : w1.vars y = some o := by rw [hst1.vars y hyn]; exact ho
  obtain ⟨v, hv, e⟩ := C75_other ty hdef w1 hw1 w.nextVar y a1 o (Ne.symm hyn) hv1 hh1 ho1 hob s hs i hi
  refine ⟨v, by rw [← hv, hst1.elem hI hyn], ?_⟩
  obtain ⟨c, p, hop⟩ : ∃ c p, o.base = some (c, p) := by
    cases h : o.base with
    | none => exact absurd h hob
    | some q => exact ⟨q.1, q.2, rfl⟩
  show _ = newFillAlloc ty s v al w
  unfold newElemAlloc newFillAlloc newAlloc
  rw [elemAddr_ok ho hop, bind_ok]
  dsimp only
  rw [e1, bind_ok, bind_ok]
  have e' : assignFill ty w.nextVar s v w1 = exec ty (.assignFill w.nextVar s v) w1 := rfl
  rw [e', ← e]
  unfold assignElem
  rw [elemAddr_ok ho1 hop, bind_ok]

/-- C75 for `fill`, which copies the value first: all elements of the view get the value the element had before, also if the element
is one of them; other elements do not change. -/
theorem C75_fill (ty : Types V) (hdef : TypesOk ty) (w : World V) (hw : Reachable ty w) (x y : Nat) (a o : Arr)
    (ha : w.vars x = some a) (ho : w.vars y = some o) (hob : o.base ≠ none) (s : Shape) (off : Int) (hv : PartOk a s off)
    (i : Index) (hi : InBox o.shape i) :
    ∃ v w', elem w y i = .ok v ∧ fillElem ty x s off y i w = .ok w' ∧ Reachable ty w' ∧
      (∀ j, InBox s j → refElem w' x s off j = .ok v) ∧
      (∀ z c j, w.vars z = some c → InBox c.shape j → (z = x → Outside s off c j) → elem w' z j = elem w z j) := by
  have hI := hw.inv hdef
  obtain ⟨v, hv1⟩ := (hI.good y o ho).elem_ok ho hob hi
  obtain ⟨c, p, hop⟩ : ∃ c p, o.base = some (c, p) := by
    cases h : o.base with
    | none => exact absurd h hob
    | some q => exact ⟨q.1, q.2, rfl⟩
  obtain ⟨w', e, h1, -, h2, h3⟩ := C58_fill ty hdef w hw x a ha s off hv v
  refine ⟨v, w', hv1, ?_, h1, h2, h3⟩
  unfold fillElem
  rw [elemAddr_ok ho hop, bind_ok]
  rw [elem_eq_read ho hop] at hv1
  dsimp only
  rw [hv1, bind_ok]
  exact e

theorem foldlM_read_error {b bs : Nat} {q : Int} {f : Fault} {l : List Int} (hl : l ≠ []) {w : World V} (h : readAt w bs q = .error f) :
    l.foldlM (fun w p => copyConstructAt bs b (q, p) w) w = .error f := by
  cases l with
  | nil => exact absurd rfl hl
  | cons p l =>
    rw [List.foldlM_cons]
    have e : copyConstructAt bs b (q, p) w = .error f := by
      unfold copyConstructAt
      rw [h]
      rfl
    rw [e]
    rfl

/-- C75 does not hold for an element of the array that is assigned to: it is destroyed, and possibly its memory released, before it is
copied.  This is so for all arrays, elements and shapes with elements. -/
theorem C75_own (ty : Types V) (hdef : TypesOk ty) (w : World V) (hw : Reachable ty w) (x : Nat) (a : Arr) (ha : w.vars x = some a)
    (hb : a.base ≠ none) (s : Shape) (hs : ShapeOk ty s) (hp : Pos s) (i : Index) (hi : InBox a.shape i) :
    assignElem ty x s x i w = .error (if a.shape = s.resolve then .dead else .outOfBounds) := by
  have hI := hw.inv hdef
  obtain ⟨c, blk, hh, hl⟩ := (hI.good x a ha).full hb
  unfold assignElem
  rw [elemAddr_ok ha hh.base, bind_ok, assignFillRef_prepare ha]
  unfold prepare
  have hr := elem_range hi
  rw [flatOffset_eq]
  have key : ∀ w1 a1 b1 blk1, w1.vars x = some a1 → Holds w1 a1 b1 blk1 → a1.shape = s.resolve → ∀ f,
      readAt w1 c (0 - a.shape.flatMin + offsetOf a.shape i) = .error f →
      constructRef ty x (c, 0 - a.shape.flatMin + offsetOf a.shape i) w1 = .error f := by
    intro w1 a1 b1 blk1 h1 h2 h3 f h4
    unfold constructRef
    rw [get_ok h1, bind_ok, assert_ok (by simp [h2.base]), bind_ok, h2.base]
    refine foldlM_read_error ?_ h4
    intro hnil
    have hm := inBox_mins (s := a1.shape) (by rw [h3]; exact resolve_pos.2 hp)
    have := (trace_mem (s := a1.shape) (by rw [h3]; exact hs.resolve.nonNeg)).2 ⟨_, hm, rfl⟩
    rw [hnil] at this
    simp at this
  by_cases hss : a.shape = s.resolve
  · rw [if_pos hss, if_pos hss]
    obtain ⟨w1, e1, s1, hb1⟩ := destroy_holds ty ha hh (hI.good x a ha).shape.nonNeg hl
    rw [e1, bind_ok]
    refine key w1 a c _ (by rw [s1.vars]; exact ha) ⟨hh.buffer, hh.base, hb1, hh.arena, hh.size, hh.bufferSize, hh.known⟩ hss _ ?_
    unfold readAt
    rw [block_ok hb1 hr.1 (by dsimp only; rw [hh.size]; exact hr.2), bind_ok]
    rfl
  · rw [if_neg hss, if_neg hss]
    obtain ⟨k, e1⟩ := deallocate_holds ty ha hh (hI.good x a ha).shape.nonNeg hl
    rw [e1, bind_ok]
    obtain ⟨w1, a1, e2, hv2, _, hsh2, _, _, hh2, halt⟩ := allocate_ok ty (x := x)
      (w := ((({ w with calls := k }.setBlock c none).setVar x
        (some { a with alloc := a.alloc.idle, base := none, shape := ty.defaultShape, buffer := none })).setVar x
          (some { a with alloc := a.alloc.idle, base := none, shape := s.resolve, buffer := none })))
      (setVar_self _ _ _) rfl rfl hs.resolve
    rw [setShapeMember_ok (setVar_self _ _ _), bind_ok, e2, bind_ok]
    dsimp only at hsh2
    rw [resolve_of_known (resolve_known s)] at hsh2
    rcases halt with ⟨_, hnp, _⟩ | ⟨blk1, hH, _, _⟩
    · rw [hsh2] at hnp
      exact absurd (resolve_pos.2 hp) hnp
    · refine key w1 a1 _ blk1 (by rw [hv2]; simp) hH hsh2 _ ?_
      have hc : c ≠ w.nextBlock := by
        rintro rfl
        have := hI.fresh w.nextBlock (Nat.le_refl _)
        rw [hh.heap] at this
        simp at this
      unfold readAt World.block
      rw [hh2 c hc]
      simp [setVar_heap, setBlock_heap]
      rfl

/-! ### Examples -/

/-- A 2×2 array of 7s; a new array with element (1, 6) of it, and its elements; the same for an assignment to another array. -/
example : (execAll exampleTypes [.newFill [⟨0, 2, unresolved⟩, ⟨5, 2, unresolved⟩] 7] World.start >>=
    newElemAlloc exampleTypes [⟨0, 3, unresolved⟩] 0 [1, 6] 1).toOption.map
    (fun w => [0, 1, 2].map fun i => (elem w 1 [i]).toOption) = some [some 7, some 7, some 7] := by decide +kernel
example : (execAll exampleTypes [.newFill [⟨0, 2, unresolved⟩, ⟨5, 2, unresolved⟩] 7, .newFill [⟨0, 3, unresolved⟩] 1] World.start >>=
    assignElem exampleTypes 1 [⟨0, 2, unresolved⟩] 0 [1, 6]).toOption.map
    (fun w => [0, 1].map fun i => (elem w 1 [i]).toOption) = some [some 7, some 7] := by decide +kernel

/-- C75 for an element of the array itself: with the same shape the element is destroyed, with another one its memory is released. -/
theorem C75_own_counterexample :
    (match execAll exampleTypes [.newFill [⟨0, 2, unresolved⟩] 7] World.start >>= assignElem exampleTypes 0 [⟨0, 2, unresolved⟩] 0 [1] with
      | .error f => some f
      | .ok _ => none) = some .dead ∧
    (match execAll exampleTypes [.newFill [⟨0, 2, unresolved⟩] 7] World.start >>= assignElem exampleTypes 0 [⟨0, 3, unresolved⟩] 0 [1] with
      | .error f => some f
      | .ok _ => none) = some .outOfBounds := by decide +kernel

/-- `fill(x, x(1))` is fine. -/
example : (execAll exampleTypes [.newFill [⟨0, 3, unresolved⟩] 7, .write 0 [1] 5] World.start >>=
    fillElem exampleTypes 0 [⟨0, 3, 1⟩] 0 0 [1]).toOption.map
    (fun w => [0, 1, 2].map fun i => (elem w 0 [i]).toOption) = some [some 5, some 5, some 5] := by decide +kernel

end Nda
