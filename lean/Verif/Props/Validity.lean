import Verif.Lemmas.ValidityExec
import Verif.Model.ElemRef
import Verif.Props.Array
/-
C76: which statements keep pointers to elements of an array valid.
-/
namespace Nda
open Spec

variable {V : Type}

theorem Reachable.bal {ty : Types V} {w : World V} (h : Reachable ty w) : Bal w := by
  obtain ⟨p, -, e⟩ := h
  exact post_execAll p bal_start w e

theorem Gone.reads {c : Nat} {w : World V} (h : Gone c w) (o : Int) : readAt w c o = .error .outOfBounds := by
  simp [readAt, World.block, h.1, bind, Except.bind]

theorem elemAddr_base {w : World V} {x : Nat} {a : Arr} (ha : w.vars x = some a) {b : Nat} {o : Int} (hb : a.base = some (b, o))
    (i : Index) : elemAddr w x i = .ok (b, o + a.shape.flatOffset i) := by
  unfold elemAddr
  rw [get_ok ha, bind_ok, hb]

/-- C76: after these statements a pointer to an element of `x` is dangling: using it is undefined, now and after everything that
follows. -/
theorem C76_lost (ty : Types V) (hdef : TypesOk ty) (w : World V) (hw : Reachable ty w) (x : Nat) (a : Arr)
    (ha : w.vars x = some a) (hb : a.base ≠ none) (c : Cmd V) (hc : Allowed ty w c) (hl : Lost ty w x a c) (i : Index) :
    ∃ p w', elemAddr w x i = .ok p ∧ exec ty c w = .ok w' ∧
      ∀ q w'', execAll ty q w' = .ok w'' → readAt w'' p.1 p.2 = .error .outOfBounds := by
  have hI := hw.inv hdef
  obtain ⟨b, blk, hh, -⟩ := (hI.good x a ha).full hb
  obtain ⟨w', e, -⟩ := exec_ok hdef hI hc
  refine ⟨_, w', elemAddr_base ha hh.base i, e, fun q w'' e2 => ?_⟩
  have h1 : Gone b w' := lost_exec hdef hI hw.bal ha hb hh.buffer hc hl w' e
  have h2 : Gone b w'' := gone_foldlM (fun w c hw => gone_exec hw) q h1 w'' e2
  exact h2.reads _

theorem has_reads {ty : Types V} {w w' : World V} {x z : Nat} {a : Arr} (hI : Inv ty w) (hI' : Inv ty w')
    (ha : w.vars x = some a) (hb : a.base ≠ none) (h : Has w' z a) (i : Index) (hi : InBox a.shape i) :
    ∃ p v, elemAddr w x i = .ok p ∧ elemAddr w' z i = .ok p ∧ readAt w' p.1 p.2 = .ok v := by
  obtain ⟨b, blk, hh, -⟩ := (hI.good x a ha).full hb
  obtain ⟨a', hz, h1, h2, h3⟩ := h
  obtain ⟨v, hv⟩ := (hI'.good z a' hz).elem_ok hz (by rw [h1]; exact hb) (by rw [h3]; exact hi)
  refine ⟨_, v, elemAddr_base ha hh.base i, ?_, ?_⟩
  · rw [elemAddr_base hz (by rw [h1]; exact hh.base) i, h3]
  · unfold elem at hv
    rw [get_ok hz, bind_ok, h1, hh.base, h3] at hv
    exact hv

/-- C76: after all other statements it is the pointer to the element with the same index of an array that exists: of `x` itself, or, when
memory changed hands, of the other one. -/
theorem C76_kept (ty : Types V) (hdef : TypesOk ty) (w : World V) (hw : Reachable ty w) (x : Nat) (a : Arr)
    (ha : w.vars x = some a) (hb : a.base ≠ none) (c : Cmd V) (hc : Allowed ty w c) (hl : ¬ Lost ty w x a c)
    (hs : ∀ y z, c = .swap y z → x = y ∨ x = z → With w y fun a => With w z fun o => SwapsMemory ty a o) :
    ∃ w' z, exec ty c w = .ok w' ∧ KeptBy ty w x a c z ∧
      ∀ i, InBox a.shape i → ∃ p v, elemAddr w x i = .ok p ∧ elemAddr w' z i = .ok p ∧ readAt w' p.1 p.2 = .ok v := by
  have hI := hw.inv hdef
  obtain ⟨w', e, hI', -⟩ := exec_ok hdef hI hc
  obtain ⟨z, hz, h⟩ := kept_exec hdef hI ha hb hc hl hs e
  exact ⟨w', z, e, hz, fun i hi => has_reads hI hI' ha hb h i hi⟩

theorem keptBy_same {ty : Types V} {w : World V} {x : Nat} {a : Arr} {c : Cmd V} {z : Nat} (h : KeptBy ty w x a c z)
    (hr : ¬ Retargets x c) : z = x := by
  cases c with
  | newMove y => exact h.2 fun hc => hr hc.1
  | newMoveAlloc y al => exact h.2 fun hc => hr hc.1
  | moveAssign y u =>
    simp only [Retargets, not_or] at hr
    by_cases ht : With w y fun c => With w u fun o => TakesAssign ty c o
    · rw [h.1 ht, otherOf_none (Ne.symm hr.1) (Ne.symm hr.2)]
    · exact h.2 ht
  | swap y u =>
    simp only [Retargets, not_or] at hr
    have h' : z = otherOf y u x := h
    rw [h', otherOf_none (Ne.symm hr.1) (Ne.symm hr.2)]
  | _ => exact h

/-- C76: as long as a program does not destroy, assign, move from or swap `x` itself, whatever else it does, including writing through
views of `x` and moving elements out of it, pointers to the elements of `x` are the ones they were. -/
theorem C76_program (ty : Types V) (hdef : TypesOk ty) (w : World V) (hw : Reachable ty w) (x : Nat) (a : Arr)
    (ha : w.vars x = some a) (hb : a.base ≠ none) (q : List (Cmd V)) (hq : AllowedRun ty q w) (hr : ∀ c ∈ q, ¬ Retargets x c) :
    ∃ w', execAll ty q w = .ok w' ∧
      ∀ i, InBox a.shape i → ∃ p v, elemAddr w x i = .ok p ∧ elemAddr w' x i = .ok p ∧ readAt w' p.1 p.2 = .ok v := by
  have main : ∀ (q : List (Cmd V)) (u : World V) (c : Arr), Inv ty u → u.vars x = some c → c.base ≠ none → AllowedRun ty q u →
      (∀ c ∈ q, ¬ Retargets x c) → ∃ w', execAll ty q u = .ok w' ∧ Inv ty w' ∧ Has w' x c := by
    intro q
    induction q with
    | nil => intro u c hu hc _ _ _; exact ⟨u, rfl, hu, has_self hc⟩
    | cons d q ih =>
      intro u c hu hc hcb hq hr
      obtain ⟨u', e, hu', -⟩ := exec_ok hdef hu hq.1
      have hd := hr d (by simp)
      obtain ⟨z, hz, h⟩ := kept_exec hdef hu hc hcb hq.1 (by
        intro hl
        refine hd ?_
        cases d <;> first
          | exact hl
          | exact hl.1
          | exact Or.inl hl.1
          | exact hl.elim) (by
        intro y z hy hx
        subst hy
        simp only [Retargets, not_or] at hd
        rcases hx with rfl | rfl
        · exact absurd rfl hd.1
        · exact absurd rfl hd.2) e
      rw [keptBy_same hz hd] at h
      obtain ⟨c', hc', h1, h2, h3⟩ := h
      have hq2 := hq.2
      rw [e] at hq2
      obtain ⟨w', e', hI', c'', h4, h5, h6, h7⟩ := ih u' c' hu' hc' (by rw [h1]; exact hcb) hq2 fun c hc => hr c (by simp [hc])
      refine ⟨w', ?_, hI', c'', h4, h5.trans h1, h6.trans h2, h7.trans h3⟩
      unfold execAll at e' ⊢
      rw [List.foldlM_cons, e, bind_ok]
      exact e'
  have hI := hw.inv hdef
  obtain ⟨w', e, hI', h⟩ := main q w a hI ha hb hq hr
  exact ⟨w', e, fun i hi => has_reads hI hI' ha hb h i hi⟩

/-! ### Examples -/

/-- Executing `p`, taking a pointer to element `i` of array `x`, executing `q`: where `z(j...)` is compared to the pointer, and what
reading through it gives. -/
def pointerAfter (ty : Types V) (p : List (Cmd V)) (x : Nat) (i : Index) (q : List (Cmd V)) (z : Nat) (j : Index) :
    Except Fault (Bool × Option V) := do
  let w ← execAll ty p World.start
  let r ← elemAddr w x i
  let w ← execAll ty q w
  let t ← elemAddr w z j
  .ok (decide (r = t), match readAt w r.1 r.2 with
    | .ok v => some v
    | .error _ => none)

/-- Two arrays, filled with 7 and 8. -/
def twoArrays : List (Cmd Int) := [.newFill [⟨1, 3, unresolved⟩, ⟨-2, 2, unresolved⟩] 7, .newFill [⟨0, 2, unresolved⟩, ⟨0, 2, unresolved⟩] 8]

example : AllowedRun exampleTypes (twoArrays ++ [.swap 0 1, .moveAssign 0 1, .newMove 1, .clear 3]) World.start := by decide +kernel

/-- Copying an array of another shape over it loses its elements; of the same shape it does not. -/
example : pointerAfter exampleTypes twoArrays 0 [2, -1] [.copyAssign 0 1] 0 [0, 0] = .ok (false, none) ∧
    pointerAfter exampleTypes (twoArrays ++ [.newCopy 0, .write 2 [2, -1] 5]) 0 [2, -1] [.copyAssign 0 2] 0 [2, -1] =
      .ok (true, some 5) := by decide +kernel

/-- After `a = std::move(b)` a pointer to an element of `b` points into `a`, and one to an element of `a` into `b`. -/
example : pointerAfter exampleTypes twoArrays 1 [1, 1] [.moveAssign 0 1] 0 [1, 1] = .ok (true, some 8) ∧
    pointerAfter exampleTypes twoArrays 0 [2, -1] [.moveAssign 0 1] 1 [2, -1] = .ok (true, some 7) := by decide +kernel

/-- The same for `swap`, and after `reshape` pointers are dangling even to elements that stay. -/
example : pointerAfter exampleTypes twoArrays 1 [1, 1] [.swap 0 1] 0 [1, 1] = .ok (true, some 8) ∧
    pointerAfter exampleTypes twoArrays 0 [2, -1] [.reshape 0 [⟨1, 4, unresolved⟩, ⟨-2, 2, unresolved⟩]] 0 [2, -1] = .ok (false, none) := by
  decide +kernel

/-- The other array may be destroyed, and the elements moved to another array one by one. -/
example : pointerAfter exampleTypes twoArrays 0 [2, -1]
    [.newCopy 0, .moveAssign 1 2, .delete 1, .makeMove 0 [⟨1, 3, unresolved⟩, ⟨-2, 2, unresolved⟩] 0, .write 0 [2, -1] 6] 0 [2, -1] =
    .ok (true, some 6) := by decide +kernel

/-- Arrays of up to 8 elements are in a buffer of the array. -/
def exampleBuffer : Types Int := { exampleTypes with inlineSize := 8 }

/-- C76 for allocators with a buffer, like `auto_allocator`: `swap` does not carry pointers over to the other array.  If the shapes are
the same the pointer still points into `x`, to the element that came from the other array; otherwise it is dangling. -/
theorem C76_swap_counterexample :
    ∃ (ty : Types Int) (p : List (Cmd Int)) (i : Index), TypesOk ty ∧ AllowedRun ty (p ++ [.swap 0 1]) World.start ∧
      pointerAfter ty p 0 i [.swap 0 1] 1 i = .ok (false, some 8) ∧ pointerAfter ty p 0 i [.swap 0 1] 0 i = .ok (true, some 8) ∧
      pointerAfter ty (p ++ [.reshape 1 [⟨0, 2, unresolved⟩, ⟨0, 3, unresolved⟩]]) 0 i [.swap 0 1] 1 i = .ok (false, none) :=
  ⟨exampleBuffer, [.newFill [⟨0, 2, unresolved⟩, ⟨0, 2, unresolved⟩] 7, .newFill [⟨0, 2, unresolved⟩, ⟨0, 2, unresolved⟩] 8], [1, 1],
    by decide +kernel, by decide +kernel, by decide +kernel, by decide +kernel, by decide +kernel⟩

end Nda
