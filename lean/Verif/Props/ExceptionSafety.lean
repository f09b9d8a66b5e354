import Verif.Lemmas.Exceptions
import Verif.Spec.Exceptions
import Verif.Props.Exceptions
/-
C78: exceptions of allocators, of assignments of elements and of functions given to algorithms.
-/
namespace Nda
open Spec

variable {V : Type}

theorem tryAll_ok [Hollow V] (hH : Hollow.ok V) {ty : Types V} (hdef : TypesOk ty) (ss : List (Stmt V))
    {w : World V} (hI : Inv ty w) (hq : ∀ s ∈ ss, ConstructsQuietly s) (hc : AllowedTryRun ty ss w) :
    ∃ w', execTryAll ty ss w = .ok w' ∧ Inv ty w' := by
  induction ss generalizing w with
  | nil => exact ⟨w, rfl, hI⟩
  | cons s ss ih =>
    obtain ⟨h1, h2⟩ := hc
    obtain ⟨w1, e1, hI1, _⟩ := execTry_ok hH hdef hI (s := s) (by
      rintro p n c rfl
      exact hq _ (List.mem_cons_self ..)) h1
    rw [e1] at h2
    obtain ⟨w2, e2, hI2⟩ := ih hI1 (fun s hs => hq s (List.mem_cons_of_mem _ hs)) h2
    refine ⟨w2, ?_, hI2⟩
    unfold execTryAll
    rw [List.foldlM_cons, e1]
    exact e2

theorem TryReachable.inv [Hollow V] (hH : Hollow.ok V) {ty : Types V} (hdef : TypesOk ty) {w : World V}
    (h : TryReachable ty w) : Inv ty w := by
  obtain ⟨ss, h1, h2, h3⟩ := h
  obtain ⟨w', e, hI⟩ := tryAll_ok hH hdef ss (inv_start ty) h1 h2
  rw [h3] at e
  simp only [Except.ok.injEq] at e
  subst e
  exact hI

/-! ### Programs -/

/-- C78: a program that catches exceptions of allocators, of assignments of elements and of functions given to
algorithms, any number of them, and goes on, does nothing undefined and fails no assertion.  All memory
belongs to one array and is alive exactly where that array has elements, and if all arrays are destroyed
nothing is allocated. -/
theorem C78_program (ty : Types V) (hdef : TypesOk ty) (ss : List (Stmt V))
    (hq : ∀ s ∈ ss, ConstructsQuietly s) (hc : AllowedTryRun ty ss World.start) :
    ∃ w, execTryAll ty ss World.start = .ok w ∧ Balanced w ∧ ((∀ x, w.vars x = none) → ∀ b, w.heap b = none) := by
  letI : Hollow V := ⟨True⟩
  obtain ⟨w, e, hI⟩ := tryAll_ok (trivial : Hollow.ok V) hdef ss (inv_start ty) hq hc
  exact ⟨w, e, hI.balanced, hI.nothing_left⟩

/-- C78 for one statement: it does what it does without exceptions, or an exception leaves it.  Then all
memory belongs to an array, every array can be destroyed, and arrays that the statement does not change when
no exception is thrown have kept their shapes and elements. -/
theorem C78_statement (ty : Types V) (hdef : TypesOk ty) (w : World V) (hw : TryReachable ty w)
    (c : Cmd V) (hc : Allowed ty w c) (p : Plan V) (hp : p.who ≠ .constructor) (n : Nat) :
    ∃ l, execX p ty c w n = .ok l ∧
      match l with
      | .returned w' _ => exec ty c w = .ok w'
      | .thrown w' => Balanced w' ∧
          (∀ x, w'.vars x ≠ none → ∃ w'', exec ty (.delete x) w' = .ok w'') ∧
          ∀ z, ¬ Changes w c z → w'.vars z = w.vars z ∧ ∀ i, elem w' z i = elem w z i := by
  letI : Hollow V := ⟨True⟩
  have hI := hw.inv (trivial : Hollow.ok V) hdef
  obtain ⟨l, e, hl⟩ := execX_ok (trivial : Hollow.ok V) hp hdef n hI hc
  refine ⟨l, e, ?_⟩
  cases l with
  | returned w' m => exact hl
  | thrown w' =>
    refine ⟨hl.inv.balanced, fun x hx => ?_, fun z hz => ⟨hl.step.vars z hz, fun i => hl.step.elem hI hz i⟩⟩
    obtain ⟨a, ha⟩ := Option.ne_none_iff_exists'.1 hx
    obtain ⟨w'', e, _⟩ := delete_ok hl.inv ha
    exact ⟨w'', e⟩

theorem Kept.allSame [Hollow V] {p : Plan V} {ty : Types V} {w w' : World V} (hI : Inv ty w)
    (h : Kept p ty (fun _ => False) w w') : AllSame w w' :=
  fun z => ⟨h.step.vars z (by simp), fun i => h.step.elem hI (by simp) i⟩

/-- C78: an exception that leaves the definition of a variable (a constructor, `make_copy`) has changed nothing. -/
theorem C78_definition (ty : Types V) (hdef : TypesOk ty) (w : World V) (hw : TryReachable ty w)
    (c : Cmd V) (hd : Defines c) (hc : Allowed ty w c) (p : Plan V) (hp : p.who ≠ .constructor) (n : Nat)
    (w' : World V) (h : execX p ty c w n = .ok (.thrown w')) : AllSame w w' := by
  letI : Hollow V := ⟨True⟩
  have hH := (trivial : Hollow.ok V)
  have hI := hw.inv hH hdef
  have key : ∀ {r0 : Except Fault (World V)} {T : Nat → Prop}, (∀ z, ¬ T z) →
      Safe r0 (Kept p ty T w) (execX p ty c w n) → AllSame w w' := by
    intro r0 T hT hs
    rw [h] at hs
    exact (Kept.mono hs fun z hz => hT z hz).allSame hI
  cases c with
  | new => exact key (fun _ => id) (newShapeAllocX_safe hH hp n hI hdef.shape ty.defaultAlloc)
  | newAlloc al => exact key (fun _ => id) (newShapeAllocX_safe hH hp n hI hdef.shape al)
  | newShape s => exact key (fun _ => id) (newShapeAllocX_safe hH hp n hI hc ty.defaultAlloc)
  | newShapeAlloc s al => exact key (fun _ => id) (newShapeAllocX_safe hH hp n hI hc al)
  | newFill s v => exact key (fun _ => id) (newFillAllocX_safe hH hp hdef n hI hc v ty.defaultAlloc)
  | newFillAlloc s v al => exact key (fun _ => id) (newFillAllocX_safe hH hp hdef n hI hc v al)
  | newCopy y =>
    obtain ⟨o, ho, _⟩ := with_iff.1 hc
    exact key (fun _ => id) (newCopyX_safe hH hp hdef n hI ho)
  | newCopyAlloc y al =>
    obtain ⟨o, ho, _⟩ := with_iff.1 hc
    exact key (fun _ => id) (newCopyAllocX_safe hH hp hdef n hI ho al)
  | newMove y =>
    obtain ⟨o, ho, _⟩ := with_iff.1 hc
    exact key (fun _ => id) (newMoveX_safe hH hp n hI ho)
  | newMoveAlloc y al =>
    obtain ⟨o, ho, _⟩ := with_iff.1 hc
    exact key (fun _ => id) (newMoveAllocX_safe hH hp n hI ho al)
  | makeCopy y s al =>
    obtain ⟨o, ho, hv⟩ := with_iff.1 hc
    have hs := makeFromX_safe hH true hp al n hI ho hv
    refine key (r0 := makeFrom true ty y o.shape 0 s al w) (T := fun z => true = false ∧ z = y) (by simp) ?_
    show Safe _ _ (makeFromArrayX true p ty y s al w n)
    unfold makeFromArrayX
    rw [get_ok ho, bind_ok]
    exact hs
  | makeCopyRef y src off s al =>
    obtain ⟨o, ho, hv⟩ := with_iff.1 hc
    exact key (T := fun z => true = false ∧ z = y) (by simp) (makeFromX_safe hH true hp al n hI ho hv)
  | delete | copyAssign | moveAssign | assignCopy | assignMove | assignFill | clear | reshape | swap | write
  | makeMove | makeMoveRef | makeMoveRvalue | copyRef | moveRef | forEach | transform => exact absurd hd id

/-- C78: an exception of an assignment of an element, or of a function given to an algorithm, changes values of
elements only: all arrays keep their shapes, memory and allocators, and there is no new array. -/
theorem C78_assignment (ty : Types V) (hdef : TypesOk ty) (w : World V) (hw : TryReachable ty w)
    (c : Cmd V) (hc : Allowed ty w c) (p : Plan V) (hp : p.who = .assignment) (n : Nat)
    (w' : World V) (h : execX p ty c w n = .ok (.thrown w')) : ∀ z, w'.vars z = w.vars z := by
  letI : Hollow V := ⟨True⟩
  have hI := hw.inv (trivial : Hollow.ok V) hdef
  obtain ⟨l, e, hl⟩ := execX_ok (trivial : Hollow.ok V) (by rw [hp]; simp) hdef n hI hc
  rw [h] at e
  simp only [Except.ok.injEq] at e
  subst e
  exact hl.vars (by rw [hp]; simp)

/-- C78: an array of which the assignment, `assign` or `clear` is left by an exception (of the allocator) has no
memory any more; other arrays have not changed, and it can be cleared. -/
theorem C78_emptied (ty : Types V) (hdef : TypesOk ty) (w : World V) (hw : TryReachable ty w)
    (c : Cmd V) (x : Nat) (hx : (∃ y, c = .copyAssign x y ∨ c = .moveAssign x y ∨ c = .assignCopy x y ∨
      c = .assignMove x y) ∨ (∃ s v, c = .assignFill x s v) ∨ c = .clear x)
    (hc : Allowed ty w c) (p : Plan V) (hp : p.who ≠ .constructor) (n : Nat)
    (w' : World V) (h : execX p ty c w n = .ok (.thrown w')) :
    p.who = .allocator ∧ (∃ a, w'.vars x = some a ∧ a.buffer = none ∧ a.base = none) ∧
      (∀ z, z ≠ x → w'.vars z = w.vars z ∧ ∀ i, elem w' z i = elem w z i) ∧ Allowed ty w' (.clear x) := by
  letI : Hollow V := ⟨True⟩
  have hH := (trivial : Hollow.ok V)
  have hI := hw.inv hH hdef
  have key : ∀ {r0 : Except Fault (World V)},
      Safe r0 (Emptied p ty (· = x) x w) (execX p ty c w n) → p.who = .allocator ∧
        (∃ a, w'.vars x = some a ∧ a.buffer = none ∧ a.base = none) ∧
        (∀ z, z ≠ x → w'.vars z = w.vars z ∧ ∀ i, elem w' z i = elem w z i) ∧ Allowed ty w' (.clear x) := by
    intro r0 hs
    rw [h] at hs
    have hs : Emptied p ty (· = x) x w w' := hs
    obtain ⟨a, ha, hn⟩ := hs.var
    exact ⟨hs.who, ⟨a, ha, hn.buffer, hn.base⟩, fun z hz => ⟨hs.step.vars z hz, fun i => hs.step.elem hI hz i⟩,
      with_iff.2 ⟨a, ha, trivial⟩⟩
  rcases hx with ⟨y, rfl | rfl | rfl | rfl⟩ | ⟨s, v, rfl⟩ | rfl
  · obtain ⟨a, ha, h'⟩ := with_iff.1 hc
    obtain ⟨o, ho, _⟩ := with_iff.1 h'
    exact key (copyAssignOpX_safe hH hp hdef n hI ha ho)
  · obtain ⟨a, ha, h'⟩ := with_iff.1 hc
    obtain ⟨o, ho, _⟩ := with_iff.1 h'
    exact key (moveAssignOpX_safe hH hp n hI ha ho)
  · obtain ⟨a, ha, h'⟩ := with_iff.1 hc
    obtain ⟨o, ho, _⟩ := with_iff.1 h'
    exact key (assignArrX_safe hH true hp n hI ha ho)
  · obtain ⟨a, ha, h'⟩ := with_iff.1 hc
    obtain ⟨o, ho, _⟩ := with_iff.1 h'
    exact key (assignArrX_safe hH false hp n hI ha ho)
  · obtain ⟨a, ha, _, hs⟩ := with_iff.1 hc
    exact key (assignFillX_safe hH hp n hI ha hs v)
  · obtain ⟨a, ha, _⟩ := with_iff.1 hc
    exact key (clearX_safe hH hp hdef n hI ha)

/-- C78: if the allocator throws in `reshape` of an array with the default allocator (not `auto_allocator`), or one
that propagates on move assignment, nothing has changed. -/
theorem C78_reshape (ty : Types V) (hdef : TypesOk ty) (w : World V) (hw : TryReachable ty w)
    (x : Nat) (a : Arr) (ha : w.vars x = some a) (s : Shape) (hc : Allowed ty w (.reshape x s))
    (hal : ty.propagateMove = true ∨ (ty.inlineSize = 0 ∧ a.alloc.arena = ty.defaultAlloc))
    (p : Plan V) (hp : p.who = .allocator) (n : Nat)
    (w' : World V) (h : execX p ty (.reshape x s) w n = .ok (.thrown w')) : AllSame w w' := by
  letI : Hollow V := ⟨True⟩
  have hH := (trivial : Hollow.ok V)
  have hI := hw.inv hH hdef
  obtain ⟨a', ha', hnh, hs, hpre⟩ := with_iff.1 hc
  rw [ha] at ha'
  simp only [Option.some.injEq] at ha'
  subst ha'
  have hs := reshapeX_strong hH (by rw [hp]; simp) (by rw [hp]; simp) hdef n hI ha hnh hs hpre (by
    rcases hal with h | ⟨h0, h⟩
    · exact Or.inl h
    · exact Or.inr ⟨h0, h⟩)
  have h : reshapeX p ty x s w n = .ok (.thrown w') := h
  rw [h] at hs
  exact Kept.allSame hI hs

/-! ### Examples -/

/-- Failing allocations, assignments and moves. -/
def noMemory : Plan Int := ⟨.allocator, id, id⟩
def badAssign : Plan Int := ⟨.assignment, fun _ => -7, fun _ => -8⟩

def exampleTries : List (Stmt Int) :=
  [.calm (.newFill [⟨0, 2, unresolved⟩, ⟨0, 2, unresolved⟩] 7), .calm (.newShapeAlloc [⟨0, 3, unresolved⟩, ⟨0, 1, unresolved⟩] 1),
   .throwing noMemory 0 (.newCopy 0), .throwing badAssign 1 (.reshape 0 [⟨0, 3, unresolved⟩, ⟨0, 2, unresolved⟩]),
   .throwing noMemory 0 (.swap 0 1), .throwing noMemory 0 (.copyAssign 1 0), .throwing noMemory 0 (.clear 1),
   .throwing badAssign 0 (.write 0 [1, 1] 3), .calm (.copyAssign 1 0)]

example : AllowedTryRun exampleTypes exampleTries World.start := by decide +kernel
example : ∀ s ∈ exampleTries, ConstructsQuietly s := by decide
/-- The element moved from and the one assigned to when the exception was thrown. -/
example : (execTryAll exampleTypes exampleTries World.start).toOption.map (fun w =>
    ([[0, 0], [0, 1], [1, 0], [1, 1]].map fun i => (elem w 0 i).toOption, (w.vars 2).isNone)) =
    some ([some (-1), some 7, some (-8), some (-7)], true) := by decide +kernel
example : (execTryAll exampleTypes (exampleTries ++ [.calm (.delete 0), .calm (.delete 1)]) World.start).toOption.map
    (fun w => ((List.range 20).filter fun b => (w.heap b).isSome).length) = some 0 := by decide +kernel
/-- The array assigned to has lost its elements. -/
example : (execTryAll exampleTypes (exampleTries.take 6) World.start).toOption.map
    (fun w => (w.vars 1).map fun a => (a.base.isNone, a.shape.size)) = some (some (true, 4)) := by decide +kernel
/-- A constructor of an element throws: what C56 says. -/
example : (match execTryAll exampleTypes [.calm (.newFill [⟨0, 2, unresolved⟩, ⟨0, 2, unresolved⟩] 7),
      .throwing ⟨.constructor, id, id⟩ 2 (.assignFill 0 [⟨0, 3, unresolved⟩, ⟨0, 2, unresolved⟩] 8), .calm (.delete 0)]
      World.start with
    | .error f => some f
    | .ok _ => none) = some .dead := by decide +kernel

end Nda
