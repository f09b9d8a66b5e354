import Verif.Lemmas.ArrayThrow
import Verif.Props.Array
/-
C56: what is left when an exception leaves an operation of an array.

Wanted: whenever the constructor of an element or the allocator throws, no memory is lost, every array can
still be destroyed, and other arrays are not affected.  The code violates the first two for exceptions of
element constructors, and satisfies all for exceptions of the allocator.
-/
namespace Nda
open Spec

variable {V : Type}

theorem size_of_prod {s : Shape} {k : Nat} (hk : (k : Int) < (s.map Dim.extent).prod) : k < s.size := by
  rw [size_eq]; omega

theorem othersSame_of_step {ty : Types V} {w w' : World V} {x : Nat} (hI : Inv ty w)
    (h : Step (· = x) w w') : OthersSame w w' x :=
  fun z hz => ⟨h.vars z hz, fun i => h.elem hI hz i⟩

theorem orphan_of_torn {ty : Types V} {w w1 : World V} {x k b : Nat} {s : Shape} {blk : Block V}
    (hI : Inv ty w) {a0 : Arr} (hx : x = w.nextVar) (h : Torn ty (w.push a0) w1 x s k b blk) :
    (w1.setVar x none).heap b = some blk ∧ aliveIn blk = k ∧ Orphan (w1.setVar x none) b ∧
      (∀ z, (w1.setVar x none).vars z = w.vars z ∧ ∀ i, elem (w1.setVar x none) z i = elem w z i) := by
  subst hx
  obtain ⟨a, h1, _, h3⟩ := h.var
  have hst : Step (· = w.nextVar) w (w1.setVar w.nextVar none) :=
    ((hI.step_push a0).trans h.step).trans (step_setVar _ _ _)
  refine ⟨h3.heap, h.alive, ?_, ?_⟩
  · intro z az o hz hb
    rw [setVar_vars] at hz
    split at hz
    · simp at hz
    · rename_i hzn
      have hz0 : w.vars z = some az := by
        rw [h.step.vars z hzn, push_vars, if_neg hzn] at hz; exact hz
      have := ((hI.good z az hz0).heap_ne hb).2
      subst this
      exact h.other z az hzn hz hb
  · intro z
    by_cases hz : z = w.nextVar
    · subst hz
      have : w.vars w.nextVar = none := hI.freshVar _ (Nat.le_refl _)
      refine ⟨by rw [setVar_self, this], fun i => ?_⟩
      unfold elem World.get
      rw [setVar_self, this]
      rfl
    · exact othersSame_of_step hI hst z hz

/-! ### Constructors -/

/-- C56 does not hold for `array(shape, alloc)`: if the constructor of element number `k` throws, the memory
of the array and the `k` elements constructed in it are lost.  Nothing else changes. -/
theorem C56_new_leaks (ty : Types V) (hdef : TypesOk ty) (w : World V) (hw : Reachable ty w)
    (s : Shape) (hs : ShapeOk ty s) (al k : Nat) (hk : (k : Int) < (s.map Dim.extent).prod) :
    ∃ w' b blk, newShapeAllocThrow ty s al k w = .ok w' ∧ w'.heap b = some blk ∧ aliveIn blk = k ∧
      Orphan w' b ∧ ∀ z, w'.vars z = w.vars z ∧ ∀ i, elem w' z i = elem w z i := by
  have hI := hw.inv hdef
  obtain ⟨w1, w', b, blk, e, rfl, h⟩ := newShapeAllocThrow_torn hI hs al (size_of_prod hk)
  exact ⟨_, b, blk, e, orphan_of_torn hI rfl h⟩

/-- C56 does not hold for `array(const array&)`: the memory and the elements copied so far are lost. -/
theorem C56_copy_leaks (ty : Types V) (hdef : TypesOk ty) (w : World V) (hw : Reachable ty w)
    (y : Nat) (o : Arr) (ho : w.vars y = some o) (hob : o.base ≠ none) (k : Nat)
    (hk : (k : Int) < (o.shape.map Dim.extent).prod) :
    ∃ w' b blk, newCopyThrow ty y k w = .ok w' ∧ w'.heap b = some blk ∧ aliveIn blk = k ∧
      Orphan w' b ∧ ∀ z, w'.vars z = w.vars z ∧ ∀ i, elem w' z i = elem w z i := by
  have hI := hw.inv hdef
  obtain ⟨w1, w', b, blk, e, rfl, h⟩ := newCopyThrow_torn hI hdef ho hob (size_of_prod hk)
  exact ⟨_, b, blk, e, orphan_of_torn hI rfl h⟩

/-- C56 does not hold for `array(shape, value, alloc)`: its destructor runs and destroys elements that were
never constructed. -/
theorem C56_fill_faults (ty : Types V) (hdef : TypesOk ty) (w : World V) (hw : Reachable ty w)
    (s : Shape) (hs : ShapeOk ty s) (v : V) (al k : Nat) (hk : (k : Int) < (s.map Dim.extent).prod) :
    newFillAllocThrow ty s v al k w = .error .dead := by
  have hI := hw.inv hdef
  obtain ⟨w1, a1, e1, hI1, _, _, hv1, _, _, hh1, _⟩ := newShapeAlloc_ok hI hdef.shape al
  obtain ⟨w2, b, blk, e2, h⟩ := assignFillThrow_torn hI1 hv1 hh1 hs v (size_of_prod hk)
  unfold newFillAllocThrow newAlloc
  dsimp only
  rw [e1, bind_ok, e2, bind_ok]
  exact h.delete hs.resolve.nonNeg

/-- C56 does not hold for `array(const array&, alloc)`, for the same reason. -/
theorem C56_copy_faults (ty : Types V) (hdef : TypesOk ty) (w : World V) (hw : Reachable ty w)
    (y : Nat) (o : Arr) (ho : w.vars y = some o) (hob : o.base ≠ none) (al k : Nat)
    (hk : (k : Int) < (o.shape.map Dim.extent).prod) :
    newCopyAllocThrow ty y al k w = .error .dead := by
  have hI := hw.inv hdef
  have hyn : y ≠ w.nextVar := by have := hI.lt ho; omega
  obtain ⟨w1, a1, e1, hI1, hst1, _, hv1, _, _, hh1, _⟩ := newShapeAlloc_ok hI hdef.shape al
  obtain ⟨w2, b, blk, e2, h⟩ := assignCopyThrow_torn hI1 hv1 (by rw [hst1.vars y hyn]; exact ho) (Ne.symm hyn)
    hob (size_of_prod hk)
  unfold newCopyAllocThrow newAlloc
  dsimp only
  rw [e1, bind_ok, e2, bind_ok]
  exact h.delete (hI.good y o ho).shape.nonNeg

/-! ### Assignment -/

/-- C56 does not hold for `assign(const array&)`: the array assigned to has memory with `k` elements in it
and the shape of the source, so destroying it destroys elements that were never constructed.  Other arrays
are not affected. -/
theorem C56_assign_faults (ty : Types V) (hdef : TypesOk ty) (w : World V)
    (hw : Reachable ty w) (x y : Nat) (a o : Arr) (ha : w.vars x = some a) (ho : w.vars y = some o)
    (hxy : x ≠ y) (hob : o.base ≠ none) (k : Nat) (hk : (k : Int) < (o.shape.map Dim.extent).prod) :
    ∃ w' a' b blk, assignCopyThrow ty x y k w = .ok w' ∧ OthersSame w w' x ∧ w'.vars x = some a' ∧
      a'.shape = o.shape ∧ a'.buffer = some (b, 0) ∧ w'.heap b = some blk ∧ aliveIn blk = k ∧
      exec ty (.delete x) w' = .error .dead := by
  have hI := hw.inv hdef
  obtain ⟨w', b, blk, e, h⟩ := assignCopyThrow_torn hI ha ho hxy hob (size_of_prod hk)
  obtain ⟨a', h1, h2, h3⟩ := h.var
  exact ⟨w', a', b, blk, e, othersSame_of_step hI h.step, h1, h2, h3.buffer, h3.heap, h.alive,
    h.delete (hI.good y o ho).shape.nonNeg⟩

/-- C56 does not hold for `assign(shape, value)`. -/
theorem C56_assign_fill_faults (ty : Types V) (hdef : TypesOk ty) (w : World V)
    (hw : Reachable ty w) (x : Nat) (a : Arr) (ha : w.vars x = some a) (hh : NotHollow a)
    (s : Shape) (hs : ShapeOk ty s) (v : V) (k : Nat) (hk : (k : Int) < (s.map Dim.extent).prod) :
    ∃ w' a' b blk, assignFillThrow ty x s v k w = .ok w' ∧ OthersSame w w' x ∧ w'.vars x = some a' ∧
      a'.shape = s.resolve ∧ a'.buffer = some (b, 0) ∧ w'.heap b = some blk ∧ aliveIn blk = k ∧
      exec ty (.delete x) w' = .error .dead := by
  have hI := hw.inv hdef
  obtain ⟨w', b, blk, e, h⟩ := assignFillThrow_torn hI ha hh hs v (size_of_prod hk)
  obtain ⟨a', h1, h2, h3⟩ := h.var
  exact ⟨w', a', b, blk, e, othersSame_of_step hI h.step, h1, h2, h3.buffer, h3.heap, h.alive,
    h.delete hs.resolve.nonNeg⟩

/-! ### Exceptions of the allocator -/

/-- C56 for `assign` when the allocator throws: the array assigned to has no memory (what it had has been
released) but the shape of the source; it can be destroyed, which leaves all memory accounted for; other
arrays are not affected. -/
theorem C56_no_memory_partial (ty : Types V) (hdef : TypesOk ty) (w : World V)
    (hw : Reachable ty w) (x y : Nat) (a o : Arr) (ha : w.vars x = some a) (ho : w.vars y = some o)
    (hxy : x ≠ y) (hp : Pos o.shape) :
    ∃ w' a' w'', assignCopyNoMem ty x y w = .ok w' ∧ OthersSame w w' x ∧ w'.vars x = some a' ∧
      a'.buffer = none ∧ a'.base = none ∧ a'.shape = o.shape.resolve ∧
      exec ty (.delete x) w' = .ok w'' ∧ OthersSame w w'' x ∧ Balanced w'' := by
  have hI := hw.inv hdef
  obtain ⟨w1, w', a', e, hI1, rfl, hn, hsh, _, hst, hnv⟩ := noMem_ok hI ha hp
  refine ⟨_, a', (w1.setVar x (some a')).setVar x none, ?_, othersSame_of_step hI hst, setVar_self _ _ _,
    hn.buffer, hn.base, hsh, ?_, othersSame_of_step hI (hst.trans (step_setVar _ _ _)), ?_⟩
  · unfold assignCopyNoMem
    rw [get_ok ho, bind_ok, e]
  · show delete ty x _ = _
    unfold delete
    rw [deallocate_null ty (setVar_self _ _ _) hn.base, bind_ok]
  · refine (hI1.finish (w' := (w1.setVar x (some a')).setVar x none) ?_ (fun _ _ h => h) ?_ (Nat.le_refl _)
      (fun _ _ => rfl) ?_ ?_ ?_ ?_ : Inv ty _).balanced
    · intro z hz; rw [setVar_vars, if_neg hz, setVar_vars, if_neg hz]
    · intro h; rw [setVar_self] at h; exact absurd rfl h
    · intro a2 h; rw [setVar_self] at h; simp at h
    · intro a2 h; rw [setVar_self] at h; simp at h
    · intro a2 c q h; rw [setVar_self] at h; simp at h
    · intro c hc; exact Or.inl hc

/-- C56 for `array(shape, alloc)` when the allocator throws: nothing has happened. -/
theorem C56_new_no_memory_partial (ty : Types V) (hdef : TypesOk ty) (w : World V)
    (hw : Reachable ty w) (s : Shape) (hp : Pos s) (al : Nat) :
    ∃ w', newShapeAllocNoMem ty s al w = .ok w' ∧ w'.vars = w.vars ∧ w'.heap = w.heap := by
  have hI := hw.inv hdef
  refine ⟨((w.push ⟨⟨al, w.nextVar, false⟩, none, 0, none, s⟩).setVar w.nextVar (some ⟨⟨al, w.nextVar, false⟩, none, s.resolve.flatExtent, none,
    s.resolve⟩)).setVar w.nextVar none, ?_, ?_, rfl⟩
  · have hv : (w.push ⟨⟨al, w.nextVar, false⟩, none, 0, none, s⟩).vars w.nextVar = some ⟨⟨al, w.nextVar, false⟩, none, 0, none, s⟩ := by
      simp [push_vars]
    unfold newShapeAllocNoMem allocateThrow
    dsimp only
    rw [get_ok hv, bind_ok, assert_ok (by simp), bind_ok, if_pos (flatExtent_pos (resolve_pos.2 hp)), bind_ok]
  · funext z
    rw [setVar_vars]
    by_cases hz : z = w.nextVar
    · rw [if_pos hz, hz, hI.freshVar _ (Nat.le_refl _)]
    · rw [if_neg hz, setVar_vars, if_neg hz, push_vars, if_neg hz]

/-- Assigning the same shape again after the allocator has thrown does not work: an assertion fails, and
without assertions nothing happens, so the array still has no elements. -/
theorem C56_retry_counterexample (ty : Types V) (hdef : TypesOk ty) (w : World V)
    (hw : Reachable ty w) (x : Nat) (a : Arr) (ha : w.vars x = some a) (s : Shape) (hs : ShapeOk ty s)
    (hp : Pos s) (v : V) :
    ∃ w', assignFillNoMem ty x s w = .ok w' ∧
      (ty.debug = true → exec ty (.assignFill x s v) w' = .error .assertion) ∧
      (ty.debug = false → exec ty (.assignFill x s v) w' = .ok w' ∧
        ∀ i, elem w' x i = .error .null) := by
  have hI := hw.inv hdef
  obtain ⟨w1, w', a', e, hI1, rfl, hn, hsh, _, hst, hnv⟩ := noMem_ok hI ha (resolve_pos.2 hp)
  have hsh : a'.shape = s.resolve := by rw [hsh]; exact resolve_of_known (resolve_known s)
  have hv := setVar_self w1 x (some a')
  have hne : s.resolve.empty = false := by
    have := (empty_iff_not_pos hs.resolve.nonNeg).not.2 (not_not.2 (resolve_pos.2 hp))
    simpa using this
  refine ⟨w1.setVar x (some a'), ?_, ?_, ?_⟩
  · unfold assignFillNoMem; exact e
  · intro hd
    show assignFill ty x s v _ = _
    unfold assignFill
    rw [get_ok hv, bind_ok]
    dsimp only
    rw [if_pos hsh]
    have : destroy ty x (w1.setVar x (some a')) = .error .assertion := by
      unfold destroy
      rw [get_ok hv, bind_ok, hn.base, hsh, hne]
      unfold assert check
      rw [hd]; rfl
    rw [this]; rfl
  · intro hd
    have hoff : ∀ b (w : World V), assert ty b w = .ok w := fun b w => assert_ok (by simp [hd]) w
    refine ⟨?_, ?_⟩
    · show assignFill ty x s v _ = _
      unfold assignFill
      rw [get_ok hv, bind_ok]
      dsimp only
      rw [if_pos hsh]
      unfold destroy construct
      simp only [get_ok hv, bind_ok, hn.base, hoff]
    · intro i
      unfold elem
      rw [get_ok hv, bind_ok, hn.base]

/-! ### Without exceptions -/

/-- The functions with exceptions agree with the ones without when element number `k` does not exist. -/
theorem C56_no_exception (ty : Types V) (x : Nat) (c : Call) (v : V) (w : World V) (a : Arr) (ha : w.vars x = some a)
    (hn : NonNeg a.shape) (k : Nat) (hk : (a.shape.map Dim.extent).prod ≤ k) :
    constructThrow ty x c v k w = construct ty x c v w := by
  unfold constructThrow construct
  rw [get_ok ha, bind_ok, bind_ok]
  cases h : a.base with
  | none => rfl
  | some p =>
    obtain ⟨b, o⟩ := p
    have : (a.shape.forEachValue (some o)).length ≤ k := by
      rw [(forEachValue_perm a.shape hn o).length_eq, List.length_map, boxList_size hn, size_eq]; omega
    dsimp only
    rw [List.take_of_length_le this]

/-- The third of four default constructions throws: two elements are lost. -/
example : (newShapeAllocThrow exampleTypes [⟨0, 2, unresolved⟩, ⟨5, 2, unresolved⟩] 1 2 World.start).toOption.map
    (fun w => ((w.heap 0).map aliveIn, (w.vars 0).isNone)) = some (some 2, true) := by decide +kernel
/-- Filling assignment, then destruction. -/
example : (match execAll exampleTypes [.newFill [⟨0, 2, unresolved⟩, ⟨5, 2, unresolved⟩] 7] World.start >>=
      assignFillThrow exampleTypes 0 [⟨0, 2, unresolved⟩, ⟨5, 2, unresolved⟩] 8 3 >>=
      exec exampleTypes (.delete 0) with
    | .error f => some f
    | .ok _ => none) = some .dead := by decide +kernel
/-- The same without an exception. -/
example : (execAll exampleTypes [.newFill [⟨0, 2, unresolved⟩, ⟨5, 2, unresolved⟩] 7] World.start >>=
    assignFillThrow exampleTypes 0 [⟨0, 2, unresolved⟩, ⟨5, 2, unresolved⟩] 8 4 >>=
    exec exampleTypes (.delete 0)).toOption.isSome := by decide +kernel

end Nda
