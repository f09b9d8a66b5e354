import Verif.Model.Reinterpret
import Verif.Lemmas.ArrayRun
/-
What a successful `move_reinterpret_shape` has done.
-/
namespace Nda
open Spec
variable {V : Type}

theorem ok_of_bind {α β : Type} {x : Except Fault α} {f : α → Except Fault β} {b : β}
    (h : (x >>= f) = .ok b) : ∃ a, x = .ok a ∧ f a = .ok b := by
  cases x with
  | error e => simp [bind, Except.bind] at h
  | ok a => exact ⟨a, rfl, h⟩

theorem ok_of_check {f : Fault} {b : Bool} {w w' : World V} (h : check f b w = .ok w') :
    b = true ∧ w' = w := by
  unfold check at h
  split at h
  · simp only [Except.ok.injEq] at h; exact ⟨by assumption, h.symm⟩
  · simp at h

theorem ok_of_assert {ty : Types V} {b : Bool} {w w' : World V} (h : assert ty b w = .ok w') :
    (ty.debug = true → b = true) ∧ w' = w := by
  obtain ⟨h1, h2⟩ := ok_of_check h
  refine ⟨fun hd => ?_, h2⟩
  rw [hd] at h1
  simpa using h1

theorem constructAt_same {k : Call} {b : Nat} {o : Int} {v : V} {w w' : World V}
    (h : constructAt k b o v w = .ok w') : SameBut (· = b) w w' := by
  unfold constructAt at h
  obtain ⟨blk, _, h⟩ := ok_of_bind h
  simp only [Except.ok.injEq] at h
  subst h
  refine ⟨rfl, rfl, rfl, fun c hc => ?_⟩
  show (w.setBlock b _).heap c = _
  rw [setBlock_heap, if_neg hc]

theorem constructLoop_same {k : Call} {b : Nat} {v : V} (tr : List Int) {w w' : World V}
    (h : tr.foldlM (fun w p => constructAt k b p v w) w = .ok w') : SameBut (· = b) w w' := by
  induction tr generalizing w with
  | nil =>
    simp only [List.foldlM_nil, pure, Except.pure, Except.ok.injEq] at h
    subst h; exact SameBut.refl _ _
  | cons a tr ih =>
    rw [List.foldlM_cons] at h
    obtain ⟨w1, h1, h2⟩ := ok_of_bind h
    exact (constructAt_same h1).trans (ih h2)

/-- A successful construction of an array leaves other objects and their memory alone. -/
theorem newShapeAlloc_frame {ty : Types V} {s : Shape} {alloc : Nat} {w w' : World V}
    (h : newShapeAlloc ty s alloc w = .ok w') :
    (∀ x, x ≠ w.nextVar → w'.vars x = w.vars x) ∧ (∀ b, b ≠ w.nextBlock → w'.heap b = w.heap b) ∧
    ∃ r, w'.vars w.nextVar = some r ∧ r.alloc.arena = alloc ∧
      ∀ b o, r.base = some (b, o) → b = w.nextBlock := by
  unfold newShapeAlloc at h
  dsimp only at h
  obtain ⟨w1, h1, h2⟩ := ok_of_bind h
  have hget : World.get (w.push ⟨⟨alloc, w.nextVar, false⟩, none, 0, none, s⟩) w.nextVar = .ok ⟨⟨alloc, w.nextVar, false⟩, none, 0, none, s⟩ := by
    simp [World.get, World.push, World.setVar]
  have key : (∀ x, x ≠ w.nextVar → w1.vars x = w.vars x) ∧ (∀ b, b ≠ w.nextBlock → w1.heap b = w.heap b) ∧
      ∃ r, w1.vars w.nextVar = some r ∧ r.alloc.arena = alloc ∧ ∀ b o, r.base = some (b, o) → b = w.nextBlock := by
    unfold allocate at h1
    rw [hget] at h1
    obtain ⟨a, ha, h1⟩ := ok_of_bind h1
    simp only [Except.ok.injEq] at ha
    subst ha
    obtain ⟨wa, hwa, h1⟩ := ok_of_bind h1
    obtain ⟨_, rfl⟩ := ok_of_assert hwa
    dsimp only at h1
    split at h1
    · simp only [Except.ok.injEq] at h1
      subst h1
      refine ⟨fun x hx => ?_, fun b hb => ?_, ⟨_, by simp [World.setVar]; rfl, by dsimp only [Allocator.allocate]; split <;> rfl, ?_⟩⟩
      · simp [World.setVar, World.setBlock, World.push, hx]
      · exact if_neg hb
      · intro b o e
        simp only [Option.some.injEq, Prod.mk.injEq] at e
        exact e.1.symm
    · obtain ⟨wb, hwb, h1⟩ := ok_of_bind h1
      obtain ⟨_, rfl⟩ := ok_of_check hwb
      simp only [Except.ok.injEq] at h1
      subst h1
      refine ⟨fun x hx => ?_, fun b hb => rfl, ⟨_, by simp [World.setVar]; rfl, rfl, ?_⟩⟩
      · simp [World.setVar, World.push, hx]
      · intro b o e; simp at e
  obtain ⟨hv, hh, r, hr, hal, hbase⟩ := key
  unfold construct at h2
  obtain ⟨a, ha, h3⟩ := ok_of_bind h2
  unfold World.get at ha
  rw [hr] at ha
  simp only [Except.ok.injEq] at ha
  subst ha
  obtain ⟨wa, hwa, h4⟩ := ok_of_bind h3
  obtain ⟨_, rfl⟩ := ok_of_assert hwa
  clear h h2 h3 hwa
  cases e : r.base with
  | none =>
    rw [e] at h4
    obtain ⟨_, rfl⟩ := ok_of_assert h4
    exact ⟨hv, hh, r, hr, hal, hbase⟩
  | some q =>
    obtain ⟨b, o⟩ := q
    rw [e] at h4
    have hs := constructLoop_same _ h4
    refine ⟨fun x hx => by rw [hs.vars, hv x hx], fun c hc => ?_, r, by rw [hs.vars, hr], hal, hbase⟩
    rw [hs.heap c (by rw [hbase b o e]; exact hc), hh c hc]

theorem isResolved_iff {s : Shape} : s.isResolved = true ↔ ∀ d ∈ s, Known d := by
  unfold Shape.isResolved
  rw [all_iff]
  simp [Shape.strides, isResolvedStride, unresolved, Known]

/-- What a successful `move_reinterpret_shape` does. -/
theorem moveReinterpretShape_ok {ty : Types V} {defaultNew : Shape} {frm : Nat} {newShape : Shape}
    {offset : Int} {w w' : World V} {a : Arr}
    (h : moveReinterpretShape ty defaultNew frm newShape offset w = .ok w')
    (ha : w.vars frm = some a) (hf : frm ≠ w.nextVar) :
    (ty.debug = true → newShape.isSubsetOf a.shape offset = true) ∧
    (∀ b, b ≠ w.nextBlock → w'.heap b = w.heap b) ∧
    (∀ x, x ≠ frm → x ≠ w.nextVar → w'.vars x = w.vars x) ∧
    (∃ r, w'.vars w.nextVar = some r ∧ r.shape = newShape ∧ r.buffer = a.buffer ∧
      r.bufferSize = a.bufferSize ∧ r.base = a.base.map fun p => (p.1, p.2 + offset)) ∧
    ∃ f, w'.vars frm = some f ∧ f.shape = ty.defaultShape := by
  unfold moveReinterpretShape at h
  dsimp only at h
  obtain ⟨f, hget, h⟩ := ok_of_bind h
  unfold World.get at hget
  rw [ha] at hget
  simp only [Except.ok.injEq] at hget
  subst hget
  obtain ⟨w1, hw1, h⟩ := ok_of_bind h
  obtain ⟨hsub, rfl⟩ := ok_of_assert hw1
  obtain ⟨w2, hw2, h⟩ := ok_of_bind h
  unfold newDefault Nda.newShape at hw2
  obtain ⟨hv, hh, r, hr, hal, -⟩ := newShapeAlloc_frame hw2
  have hfrm : w2.vars frm = some a := by rw [hv frm hf, ha]
  obtain ⟨w3, hw3, h⟩ := ok_of_bind h
  have key : ∃ r3 f3, w3.vars w1.nextVar = some r3 ∧ w3.vars frm = some f3 ∧
      f3.buffer = a.buffer ∧ f3.base = a.base ∧ f3.bufferSize = a.bufferSize ∧ f3.shape = a.shape ∧
      (∀ b, w3.heap b = w2.heap b) ∧
      ∀ x, x ≠ frm → x ≠ w1.nextVar → w3.vars x = w2.vars x := by
    unfold reinterpretAllocators at hw3
    split at hw3
    · unfold swapAllocator World.get at hw3
      rw [hr, hfrm] at hw3
      simp only [bind, Except.bind, Except.ok.injEq] at hw3
      subst hw3
      refine ⟨{ r with alloc := { r.alloc with arena := a.alloc.arena } },
        { a with alloc := { a.alloc with arena := r.alloc.arena } }, ?_, ?_, rfl, rfl, rfl, rfl,
        fun _ => rfl, ?_⟩
      · simp [World.setVar, Ne.symm hf]
      · simp [World.setVar]
      · intro x h1 h2; simp [World.setVar, h1, h2]
    · unfold World.get at hw3
      rw [hr, hfrm] at hw3
      simp only [bind, Except.bind] at hw3
      obtain ⟨_, rfl⟩ := ok_of_assert hw3
      exact ⟨r, a, hr, hfrm, rfl, rfl, rfl, rfl, fun _ => rfl, fun _ _ _ => rfl⟩
  obtain ⟨r3, f3, hr3, hf3, e1, e2, e3, e4, hheap, hvars⟩ := key
  unfold World.get at h
  rw [hr3, hf3] at h
  simp only [bind, Except.bind] at h
  split at h
  · simp at h
  · rename_i w4 hw4
    obtain ⟨_, rfl⟩ := ok_of_check hw4
    simp only [Except.ok.injEq] at h
    subst h
    refine ⟨hsub, ?_, ?_, ⟨{ f3 with
      alloc := r3.alloc, shape := newShape, base := f3.base.map fun p => (p.1, p.2 + offset) },
      ?_, rfl, e1, e3, ?_⟩, ⟨{ r3 with alloc := f3.alloc, shape := ty.defaultShape }, ?_, rfl⟩⟩
    · intro b hb
      show w4.heap b = _
      rw [hheap b, hh b hb]
    · intro x h1 h2
      simp only [World.setVar]
      rw [if_neg h1, if_neg h2, hvars x h1 h2, hv x h2]
    · simp only [World.setVar]
      rw [if_neg (Ne.symm hf), if_pos trivial]
    · dsimp only; rw [e2]
    · simp only [World.setVar]
      rw [if_pos trivial]

end Nda
