import Verif.Model.Uninitialized
import Verif.Props.DataIndependence
import Verif.Props.MakeCopy
import Verif.Props.ArrayCalls
/-
C71: arrays whose allocator skips default construction.
-/
namespace Nda
open Spec

variable {V : Type}

/-! ### Skipping default construction is default construction of indeterminate values -/

/-- The same state, except that in the first one some calls of default constructors are recorded. -/
def SameButCalls (w z : World V) : Prop :=
  z.heap = w.heap ∧ z.nextBlock = w.nextBlock ∧ z.vars = w.vars ∧ z.nextVar = w.nextVar

/-- One element of a block without values. -/
theorem skipConstructAt_same {b : Nat} (o : Int) {w z : World (Option V)} {c : List Call} (h : SameButCalls w z)
    (hz : z.calls = c) (hb : ∀ blk, w.heap b = some blk → ∀ o, blk.val o = none) :
    Both (fun w z => SameButCalls w z ∧ z.calls = c ∧ ∀ blk, w.heap b = some blk → ∀ o, blk.val o = none)
      (constructAt .defaultConstruct b o none w) (skipConstructAt b o z) := by
  unfold constructAt skipConstructAt World.block
  obtain ⟨h1, h2, h3, h4⟩ := h
  rw [h1]
  cases hw : w.heap b with
  | none => exact rfl
  | some blk =>
    dsimp only
    split
    · have hv : (fun p => if p = o then none else blk.val p) = blk.val := by
        funext p
        split
        · exact (hb blk hw p).symm
        · rfl
      refine ⟨⟨?_, h2, h3, h4⟩, hz, ?_⟩
      · simp only [World.setBlock, hv, h1]
      · intro blk' hblk' p
        simp only [World.setBlock, if_true, Option.some.injEq] at hblk'
        rw [← hblk', hv]
        exact hb blk hw p
    · exact rfl

theorem skipConstruct_same (ty : Types V) (x : Nat) {w z : World (Option V)} {c : List Call} (h : SameButCalls w z)
    (hz : z.calls = c) (hb : ∀ a b o, w.vars x = some a → a.base = some (b, o) → ∀ blk, w.heap b = some blk → ∀ o, blk.val o = none) :
    Both (fun w z => SameButCalls w z ∧ z.calls = c) (construct ty.uninitialized x .defaultConstruct none w)
      (skipConstruct ty x z) := by
  unfold construct skipConstruct
  have hg : z.get x = w.get x := by unfold World.get; rw [h.2.2.1]
  rw [hg]
  cases ha : w.vars x with
  | none => simp only [World.get, ha]; exact rfl
  | some a =>
    rw [get_ok ha, bind_ok, bind_ok]
    refine Both.bind (S := fun w' z' => w' = w ∧ z' = z) ?_ ?_
    · unfold assert check
      split
      · exact ⟨rfl, rfl⟩
      · exact rfl
    · rintro w' z' ⟨rfl, rfl⟩
      cases hbase : a.base with
      | none =>
        unfold assert check
        dsimp only
        split
        · exact ⟨h, hz⟩
        · exact rfl
      | some p =>
        dsimp only
        have := Both.foldlM_same
          (S := fun w z => SameButCalls w z ∧ z.calls = c ∧ ∀ blk, w.heap p.1 = some blk → ∀ o, blk.val o = none)
          (f := fun w q => constructAt .defaultConstruct p.1 q none w) (g := fun w q => skipConstructAt p.1 q w)
          (fun w z q hwz => skipConstructAt_same q hwz.1 hwz.2.1 hwz.2.2)
          (a.shape.forEachValue (some p.2)) ⟨h, hz, hb a p.1 p.2 ha hbase⟩
        revert this
        generalize List.foldlM (fun w q => constructAt .defaultConstruct p.1 q none w) _ _ = r
        generalize List.foldlM (fun w q => skipConstructAt p.1 q w) _ _ = s
        intro this
        cases r <;> cases s <;> first | exact this.elim | exact this | exact ⟨this.1, this.2.1⟩

/-- After `allocate` the memory of an array has no values. -/
theorem allocate_blank {ty : Types V} {x : Nat} {w w' : World (Option V)} (e : allocate ty.uninitialized x w = .ok w') :
    ∀ a b o, w'.vars x = some a → a.base = some (b, o) → ∀ blk, w'.heap b = some blk → ∀ o, blk.val o = none := by
  intro a b o ha hbase blk hblk q
  unfold allocate at e
  cases hx : w.vars x with
  | none => simp only [World.get, hx] at e; cases e
  | some a0 =>
    rw [get_ok hx, bind_ok] at e
    unfold assert check at e
    split at e
    · rw [bind_ok] at e
      dsimp only at e
      split at e
      · injection e with e
        subst e
        simp only [World.setVar, if_true, Option.some.injEq] at ha
        subst ha
        simp only [Option.some.injEq, Prod.mk.injEq] at hbase
        obtain ⟨rfl, rfl⟩ := hbase
        simp only [World.setVar, World.setBlock, if_true, Option.some.injEq] at hblk
        subst hblk
        rfl
      · split at e
        · rw [bind_ok] at e
          injection e with e
          subst e
          simp only [World.setVar, if_true, Option.some.injEq] at ha
          subst ha
          cases hbase
        · cases e
    · cases e

/-- C71: constructing an array whose allocator skips default construction leaves the same state as default constructing
indeterminate elements, and does not call a member function of the element type. -/
theorem C71_new (ty : Types V) (s : Shape) (al : Nat) (w : World (Option V)) :
    Both (fun w' z' => SameButCalls w' z' ∧ z'.calls = w.calls) (newShapeAlloc ty.uninitialized s al w)
      (newShapeSkip ty s al w) := by
  unfold newShapeAlloc newShapeSkip
  dsimp only
  cases e : allocate ty.uninitialized w.nextVar (w.push ⟨⟨al, w.nextVar, false⟩, none, 0, none, s⟩) with
  | error f => exact rfl
  | ok w' =>
    rw [bind_ok, bind_ok]
    have hc : w'.calls = w.calls := by
      unfold allocate at e
      rw [get_ok (a := ⟨⟨al, w.nextVar, false⟩, none, 0, none, s⟩) (by simp [World.push, World.setVar]), bind_ok] at e
      unfold assert check at e
      split at e
      · rw [bind_ok] at e
        dsimp only at e
        split at e
        · injection e with e
          subst e
          rfl
        · split at e
          · rw [bind_ok] at e
            injection e with e
            subst e
            rfl
          · cases e
      · cases e
    exact skipConstruct_same ty _ ⟨rfl, rfl, rfl, rfl⟩ hc (allocate_blank e)

/-- C71: and so does `clear`. -/
theorem C71_clear (ty : Types V) (x : Nat) (w : World (Option V)) :
    Both SameButCalls (clear ty.uninitialized x w) (clearSkip ty x w) := by
  unfold clear clearSkip
  cases e : deallocate ty.uninitialized x w with
  | error f => exact rfl
  | ok w1 =>
    rw [bind_ok, bind_ok]
    cases e : setShapeMember x ty.defaultShape w1 with
    | error f =>
      rw [show ty.uninitialized.defaultShape = ty.defaultShape from rfl, e]
      exact rfl
    | ok w2 =>
      rw [show ty.uninitialized.defaultShape = ty.defaultShape from rfl, e, bind_ok, bind_ok]
      cases e : allocate ty.uninitialized x w2 with
      | error f => exact rfl
      | ok w3 =>
        rw [bind_ok, bind_ok]
        have := skipConstruct_same ty x (c := w3.calls) ⟨rfl, rfl, rfl, rfl⟩ rfl (allocate_blank e)
        revert this
        show _ → Both SameButCalls (construct ty.uninitialized x .defaultConstruct none w3) (skipConstruct ty x w3)
        generalize construct ty.uninitialized x .defaultConstruct none w3 = r
        generalize skipConstruct ty x w3 = s
        intro this
        cases r <;> cases s <;> first | exact this.elim | exact this | exact this.1

/-! ### The same program with another allocator -/

/-- `o` is indeterminate or `v`. -/
def Refines (o : Option V) (v : V) : Prop := o = none ∨ o = some v

/-- C71: a program that runs with an allocator that skips default construction, where `for_each_value` gives an
indeterminate element a value only if that does not depend on the element (as `fill` and `generate` do), and one with the base
allocator: both go wrong, and in the same way, or both succeed with the same arrays, and every element that is not
indeterminate is the same, whatever value `T()` has. -/
theorem C71_simulates (ty : Types V) (d j : V) (p : List (Cmd (Option V))) (q : List (Cmd V))
    (hpq : List.Forall₂ (CmdRel Refines) p q) :
    (∃ f, execAll ty.uninitialized p World.start = .error f ∧
      execAll { ty with defaultValue := d, junk := j } q World.start = .error f) ∨
    ∃ w z, execAll ty.uninitialized p World.start = .ok w ∧
      execAll { ty with defaultValue := d, junk := j } q World.start = .ok z ∧ z.vars = w.vars ∧
      (∀ x i v, elem w x i = .ok (some v) → elem z x i = .ok v) ∧
      (∀ x i v, elem z x i = .ok v → elem w x i = .ok none ∨ elem w x i = .ok (some v)) := by
  have ht : TypesRel Refines ty.uninitialized { ty with defaultValue := d, junk := j } := by
    refine ⟨rfl, rfl, rfl, rfl, rfl, rfl, rfl, rfl, .inl rfl, ?_⟩
    rintro u v (rfl | rfl)
    · exact .inl rfl
    · exact .inr rfl
  rcases C70_related Refines _ _ ht p q hpq with h | ⟨w, z, h1, h2, h3, -, h4, h5, -⟩
  · exact .inl h
  · refine .inr ⟨w, z, h1, h2, h3, fun x i v hv => ?_, fun x i v hv => ?_⟩
    · obtain ⟨u, hu, hr⟩ := h4 x i _ hv
      rcases hr with hr | hr
      · cases hr
      · injection hr with hr
        rw [hu, hr]
    · obtain ⟨u, hu, hr⟩ := h5 x i v hv
      rcases hr with rfl | rfl
      · exact .inl hu
      · exact .inr hu

/-- C71: elements of a new array are indeterminate. -/
theorem C71_indeterminate (ty : Types V) (hdef : TypesOk ty.uninitialized) (w : World (Option V))
    (hw : Reachable ty.uninitialized w) (s : Shape) (hs : ShapeOk ty.uninitialized s) :
    ∃ w', exec ty.uninitialized (.newShape s) w = .ok w' ∧ Contents w' w.nextVar s.resolve fun _ => none := by
  obtain ⟨w', a', e, -, -, -, hv, hsh, -, -, hc⟩ := newShapeAlloc_ok (hw.inv hdef) hs ty.uninitialized.defaultAlloc
  exact ⟨w', e, ⟨a', hv, hsh⟩, fun i hi => hc i (by rw [hsh]; exact hi)⟩

/-- C71: what is made by copying is as determinate as its source (test/array.cpp:308-324). -/
theorem C71_make_copy (ty : Types V) (hdef : TypesOk ty.uninitialized) (w : World (Option V))
    (hw : Reachable ty.uninitialized w) (y : Nat) (o : Arr) (ho : w.vars y = some o) (hn : NotHollow o) (f : Index → V)
    (hf : Contents w y o.shape fun i => some (f i)) (s : Shape) (al : Nat) (hs : ShapeOk ty.uninitialized s)
    (hsub : ∀ i, InBox s i → InBox o.shape i) (hinj : Injective s.resolve) :
    ∃ w', exec ty.uninitialized (.makeCopy y s al) w = .ok w' ∧ Contents w' w.nextVar s.resolve fun i => some (f i) := by
  obtain ⟨w', a', e, -, -, hx, -⟩ := C55_copy_array ty.uninitialized hdef w hw y o ho hn _ hf s al hs hsub hinj
  exact ⟨w', e, hx⟩

/-- C71: filling makes all elements determinate. -/
theorem C71_fill (ty : Types V) (hdef : TypesOk ty.uninitialized) (w : World (Option V))
    (hw : Reachable ty.uninitialized w) (s : Shape) (hs : ShapeOk ty.uninitialized s) (v : V) :
    ∃ w', exec ty.uninitialized (.newFill s (some v)) w = .ok w' ∧ Contents w' w.nextVar s.resolve fun _ => some v := by
  obtain ⟨w', a', e, -, -, -, hv, hsh, -, -, hc⟩ := newFillAlloc_ok (hw.inv hdef) hdef hs (some v) ty.uninitialized.defaultAlloc
  exact ⟨w', e, ⟨a', hv, hsh⟩, fun i hi => hc i (by rw [hsh]; exact hi)⟩

/-! ### Examples -/

/-- test/array_lifetime.cpp:445-450 with another shape: no constructor is called, and there are elements. -/
example : ((newShapeSkip exampleTypes lifetimeShape 0 World.start).map fun w => w.calls) = .ok [] ∧
    ((newShapeSkip exampleTypes lifetimeShape 0 World.start) >>= fun w => elem w 0 [1, 5]) = .ok none ∧
    ((newShapeAlloc exampleTypes lifetimeShape 0 World.start).map fun w => w.calls.length) = .ok 50 := by decide +kernel

/-- Some elements are written, some are not; the array is copied and reshaped. -/
def partlyWritten : List (Cmd (Option Int)) :=
  [.newShape [⟨0, 2, unresolved⟩, ⟨0, 2, unresolved⟩], .write 0 [0, 1] (some 5), .newCopy 0,
   .reshape 1 [⟨0, 1, unresolved⟩, ⟨0, 3, unresolved⟩], .forEach 0 [⟨0, 2, 1⟩] 0 fun k _ => some k]

def partlyWrittenInt : List (Cmd Int) :=
  [.newShape [⟨0, 2, unresolved⟩, ⟨0, 2, unresolved⟩], .write 0 [0, 1] 5, .newCopy 0,
   .reshape 1 [⟨0, 1, unresolved⟩, ⟨0, 3, unresolved⟩], .forEach 0 [⟨0, 2, 1⟩] 0 fun k _ => k]

example : List.Forall₂ (CmdRel Refines) partlyWritten partlyWrittenInt ∧
    [[0, 0], [1, 0], [0, 1], [1, 1]].map (result exampleTypes.uninitialized partlyWritten 0) =
      [.ok (some 0), .ok (some 1), .ok (some 5), .ok none] ∧
    [[0, 0], [0, 1], [0, 2]].map (result exampleTypes.uninitialized partlyWritten 1) =
      [.ok none, .ok (some 5), .ok none] ∧
    [[0, 0], [1, 0], [0, 1], [1, 1]].map (result { exampleTypes with defaultValue := 77 } partlyWrittenInt 0) =
      [.ok 0, .ok 1, .ok 5, .ok 77] := by
  refine ⟨?_, by decide +kernel, by decide +kernel, by decide +kernel⟩
  refine .cons (.newShape _) (.cons (.write _ _ (.inr rfl)) (.cons (.newCopy _) (.cons (.reshape _ _) (.cons ?_ .nil))))
  exact .forEach _ _ _ fun k u v _ => .inr rfl

end Nda
