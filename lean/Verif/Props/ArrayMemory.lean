import Verif.Lemmas.ArraySettled
import Verif.Props.ArrayCalls
/-
C97: when the operations of `array` allocate memory, and who holds it.
-/
namespace Nda
open Spec

variable {V : Type}

/-- C97: the number of allocations of a statement is the one of the table `blocksBy`. -/
theorem C97_statement (ty : Types V) (hdef : TypesOk ty) (w : World V) (hw : Reachable ty w) (c : Cmd V)
    (hc : Allowed ty w c) (hs : SwapSettled ty w c) :
    ∃ w', exec ty c w = .ok w' ∧ w'.nextBlock = w.nextBlock + blocksBy ty w c := by
  have hI := hw.inv hdef
  obtain ⟨w', e, _⟩ := exec_ok hdef hI hc
  exact ⟨w', e, exec_blocks hdef hI hc hs e⟩

theorem execAll_settled {ty : Types V} (hdef : TypesOk ty) (hd : blocksFor ty.defaultShape = 0) (p : List (Cmd V)) :
    ∀ {v w : World V}, Inv ty v → AllowedRun ty p v → AllSettled v → execAll ty p v = .ok w → AllSettled w := by
  induction p with
  | nil =>
    intro v w _ _ hv e
    obtain rfl : v = w := by simpa [execAll, pure, Except.pure] using e
    exact hv
  | cons c p ih =>
    intro v w hI hp hv e
    obtain ⟨v', e', hI', _⟩ := exec_ok hdef hI hp.1
    have hp' := hp.2
    rw [execAll_cons, e', bind_ok] at e
    rw [e'] at hp'
    exact ih hI' hp' (exec_settled hdef hd hI hp.1 hv e') e

/-- C97: if the default shape needs no memory, as that of every shape type with an extent that is not a compile-time
constant, an array owns memory exactly if its shape needs memory, after every program. -/
theorem C97_settled (ty : Types V) (hdef : TypesOk ty) (hd : blocksFor ty.defaultShape = 0) (w : World V)
    (hw : Reachable ty w) (x : Nat) (a : Arr) (ha : w.vars x = some a) :
    a.base ≠ none ↔ 0 < a.shape.resolve.flatExtent := by
  obtain ⟨p, hp, e⟩ := hw
  have := execAll_settled hdef hd p (inv_start ty) hp (by intro x a h; simp [World.start] at h) e x a ha
  unfold Settled blocksOf blocksFor at this
  by_cases hb : a.base = none
  · rw [if_pos hb] at this
    refine ⟨fun h => absurd hb h, fun h => ?_⟩
    rw [if_pos h] at this
    simp at this
  · rw [if_neg hb] at this
    refine ⟨fun _ => ?_, fun _ => hb⟩
    by_contra h
    rw [if_neg h] at this
    simp at this

/-- C97: for such shape types the table has no exception. -/
theorem C97_statement_settled (ty : Types V) (hdef : TypesOk ty) (hd : blocksFor ty.defaultShape = 0) (w : World V)
    (hw : Reachable ty w) (c : Cmd V) (hc : Allowed ty w c) :
    ∃ w', exec ty c w = .ok w' ∧ w'.nextBlock = w.nextBlock + blocksBy ty w c := by
  refine C97_statement ty hdef w hw c hc ?_
  obtain ⟨p, hp, e⟩ := hw
  have := execAll_settled hdef hd p (inv_start ty) hp (by intro x a h; simp [World.start] at h) e
  cases c <;> try trivial
  rename_i x y
  intro a o ha ho
  exact Or.inr (Or.inr (Or.inr ⟨this x a ha, this y o ho⟩))

/-- C97: after every program the number of allocations that have not been given back is the number of arrays that own
memory. -/
theorem C97_held (ty : Types V) (hdef : TypesOk ty) (p : List (Cmd V)) (hp : AllowedRun ty p World.start) :
    ∃ w, execAll ty p World.start = .ok w ∧ heldBlocks w = allBlocks w := by
  obtain ⟨w, e, hI⟩ := execAll_ok hdef p (inv_start ty) hp
  exact ⟨w, e, hI.held⟩

/-- C97: if no array is left, all memory has been given back. -/
theorem C97_all_returned (ty : Types V) (hdef : TypesOk ty) (p : List (Cmd V))
    (hp : AllowedRun ty p World.start) (w : World V) (e : execAll ty p World.start = .ok w)
    (hw : ∀ x, w.vars x = none) : heldBlocks w = 0 := by
  obtain ⟨w', e', h⟩ := C97_held ty hdef p hp
  rw [e, Except.ok.injEq] at e'
  subst e'
  rw [h]
  refine List.sum_eq_zero fun n hn => ?_
  obtain ⟨x, _, rfl⟩ := List.mem_map.1 hn
  simp only [hw]

/-- C97: the memory an array owns is as large as the range of its flat offsets, and the base pointer is such that the
smallest flat offset is at the beginning. -/
theorem C97_size (ty : Types V) (hdef : TypesOk ty) (w : World V) (hw : Reachable ty w) (x : Nat) (a : Arr)
    (ha : w.vars x = some a) (hb : a.base ≠ none) :
    ∃ b blk, a.base = some (b, - a.shape.flatMin) ∧ w.heap b = some blk ∧ blk.size = a.shape.flatExtent ∧
      0 < a.shape.flatExtent := by
  have hg := (hw.inv hdef).good x a ha
  rcases hg.own with ⟨hn, _⟩ | ⟨b, blk, hh, _⟩
  · exact absurd hn.base hb
  · refine ⟨b, blk, ?_, hh.heap, hh.size, (hg.fits (by rw [hh.buffer]; simp)).1⟩
    rw [hh.base, Int.zero_sub]

/-- C97: with an allocator that propagates on move assignment, as `std::allocator`, move constructors, move assignments
and `swap` allocate nothing. -/
theorem C97_moves (ty : Types V) (hdef : TypesOk ty) (hm : ty.propagateMove = true) (w : World V)
    (hw : Reachable ty w) (x y : Nat) (c : Cmd V) (hcs : c = .newMove y ∨ c = .moveAssign x y ∨ c = .swap x y)
    (hc : Allowed ty w c) : ∃ w', exec ty c w = .ok w' ∧ w'.nextBlock = w.nextBlock := by
  have hs : SwapSettled ty w c := by
    rcases hcs with rfl | rfl | rfl
    exacts [trivial, trivial, fun _ _ _ _ => Or.inr (Or.inl hm)]
  obtain ⟨w', e, h⟩ := C97_statement ty hdef w hw c hc hs
  refine ⟨w', e, ?_⟩
  rw [h]
  rcases hcs with rfl | rfl | rfl
  · obtain ⟨o, ho, _⟩ := with_iff.1 hc
    simp [blocksBy, blocksBy.of, ho, TakesNew, hm]
  · obtain ⟨a, ha, h1⟩ := with_iff.1 hc
    obtain ⟨o, ho, _⟩ := with_iff.1 h1
    simp [blocksBy, blocksBy.of, ha, ho, TakesAssign, hm]
  · obtain ⟨a, ha, h1⟩ := with_iff.1 hc
    obtain ⟨o, ho, _⟩ := with_iff.1 h1
    simp [blocksBy, blocksBy.of, ha, ho, blocksSwap, hm]

/-- C97: `assign(other)` to an array that owns memory and has the same shape uses the memory again: no array object
changes, so pointers and views stay valid. -/
theorem C97_same_place (ty : Types V) (hdef : TypesOk ty) (w : World V) (hw : Reachable ty w) (x y : Nat) (a o : Arr)
    (ha : w.vars x = some a) (ho : w.vars y = some o) (hb : a.base ≠ none) (hs : a.shape = o.shape) (c : Cmd V)
    (hcs : c = .assignCopy x y ∨ c = .assignMove x y ∨ c = .copyAssign x y ∧ ty.propagateCopy = false)
    (hc : Allowed ty w c) :
    ∃ w', exec ty c w = .ok w' ∧ w'.vars = w.vars ∧ w'.nextBlock = w.nextBlock := by
  have hI := hw.inv hdef
  obtain ⟨w', e, _⟩ := exec_ok hdef hI hc
  have main : ∀ keep, assignArr keep ty x y w = .ok w' → w'.vars = w.vars ∧ w'.nextBlock = w.nextBlock := by
    intro keep h
    rw [assignArr_eq keep ha ho] at h
    have hsome : a.base.isSome = true := by rw [Option.isSome_iff_ne_none]; exact hb
    by_cases hbb : a.base = o.base
    · rw [if_pos hbb, if_pos hsome] at h
      exact ⟨(still_assert h).vars, (still_assert h).blocks⟩
    · rw [if_neg hbb, if_pos (by rw [hsome, decide_eq_true hs]; rfl)] at h
      replace h := ok_of_bind h
      obtain ⟨w1, h1, h⟩ := h
      exact ⟨(still_transfer keep h).vars.trans (still_destroy h1).vars,
        (still_transfer keep h).blocks.trans (still_destroy h1).blocks⟩
  refine ⟨w', e, ?_⟩
  rcases hcs with rfl | rfl | ⟨rfl, hp⟩
  · exact main true e
  · exact main false e
  · refine main true ?_
    rw [← e]
    show assignCopy ty x y w = copyAssignOp ty x y w
    unfold copyAssignOp
    rw [get_ok ha, bind_ok, get_ok ho, bind_ok]
    by_cases hbb : a.base = o.base
    · unfold assignCopy
      rw [get_ok ha, bind_ok, get_ok ho, bind_ok, if_pos hbb, if_pos hbb]
    · rw [if_neg hbb]
      simp only [hp, Bool.false_eq_true, if_false]
      rfl

/-- C97: so does `assign(shape, value)`. -/
theorem C97_same_place_fill (ty : Types V) (hdef : TypesOk ty) (w : World V) (hw : Reachable ty w) (x : Nat) (a : Arr)
    (ha : w.vars x = some a) (s : Shape) (v : V) (hs : a.shape = s.resolve) (hc : Allowed ty w (.assignFill x s v)) :
    ∃ w', exec ty (.assignFill x s v) w = .ok w' ∧ w'.vars = w.vars ∧ w'.nextBlock = w.nextBlock := by
  have hI := hw.inv hdef
  obtain ⟨w', e, _⟩ := exec_ok hdef hI hc
  refine ⟨w', e, ?_⟩
  change assignFill ty x s v w = _ at e
  unfold assignFill at e
  rw [get_ok ha, bind_ok] at e
  dsimp only at e
  rw [if_pos hs] at e
  replace e := ok_of_bind e
  obtain ⟨w1, h1, h⟩ := e
  exact ⟨(still_construct h).vars.trans (still_destroy h1).vars,
    (still_construct h).blocks.trans (still_destroy h1).blocks⟩

/-- C97: statements on elements and views change no array object. -/
theorem C97_views (ty : Types V) (hdef : TypesOk ty) (w : World V) (hw : Reachable ty w) (c : Cmd V)
    (hcs : match c with
      | .write _ _ _ => True
      | .copyRef _ _ _ _ _ _ => True
      | .moveRef _ _ _ _ _ _ => True
      | .forEach _ _ _ _ => True
      | .transform _ _ _ _ => True
      | _ => False)
    (hc : Allowed ty w c) :
    ∃ w', exec ty c w = .ok w' ∧ w'.vars = w.vars ∧ w'.nextBlock = w.nextBlock := by
  have hI := hw.inv hdef
  obtain ⟨w', e, _⟩ := exec_ok hdef hI hc
  have key : Still w w' := by
    cases c <;> try exact hcs.elim
    · exact still_write e
    · exact still_assignRef true e
    · exact still_assignRef false e
    · exact still_forEachRef e
    · exact still_transformRef e
  exact ⟨w', e, key.vars, key.blocks⟩

/-! ### What the table shows -/

/-- The allocations of the statements after the first `n` of a program, and those held at the end. -/
def memory (ty : Types V) (n : Nat) (p : List (Cmd V)) : Option (Nat × Nat) :=
  match execAll ty (p.take n) World.start with
  | .error _ => none
  | .ok w =>
    match execAll ty (p.drop n) w with
    | .error _ => none
    | .ok w' => some (w'.nextBlock - w.nextBlock, heldBlocks w')

/-- C97: an array of extents 100, 100 and 0 has no elements, but asks for memory for 9999: `flat_extent` of a shape
without indices is not 0 (array.h:1233-1236), and `allocate` asks for that much (array.h:2282-2291). -/
theorem C97_empty_memory :
    let s : Shape := [⟨0, 100, unresolved⟩, ⟨0, 100, unresolved⟩, ⟨0, 0, 1⟩]
    let ty : Types Int := { exampleTypes with defaultShape := [⟨0, 0, unresolved⟩, ⟨0, 0, unresolved⟩, ⟨0, 0, 1⟩] }
    Allowed ty World.start (.newShape s) ∧ s.size = 0 ∧ s.resolve.flatExtent = 9999 ∧
      memory ty 0 [.newShape s] = some (1, 1) ∧ blocksFor ty.defaultShape = 0 := by decide +kernel

/-- C97: with a shape type all of whose extents are compile-time constants, `array(shape, value)` allocates twice if
the shape is not the default one, and `array(const array&, alloc)` as well. -/
theorem C97_fill_static :
    let s : Shape := exampleStatic.defaultShape.map fun d => { d with stride := 2 * d.stride }
    memory exampleStatic 0 [.newFill exampleStatic.defaultShape 7] = some (1, 1) ∧
    memory exampleStatic 0 [.newFill s 7] = some (2, 1) ∧
    memory exampleStatic 1 [.newShape s, .newCopyAlloc 0 0] = some (2, 2) := by decide +kernel

/-- C97: swapping two arrays that have the same allocator, which is not the default one and does not propagate,
allocates memory, although pointers could be exchanged. -/
theorem C97_swap_same_allocator :
    memory exampleTypes 2 [.newShapeAlloc lifetimeShape 1, .newShapeAlloc lifetimeSubshape 1, .swap 0 1] =
      some (1, 2) := by decide +kernel

/-! ### Examples -/

example : (allocs.map fun ty => memory ty 0 lifetimeLeaks) =
    [some (22, 0), some (22, 0), some (22, 0), some (24, 0), some (24, 0)] := by decide +kernel
example : (allocs.map fun ty => memory ty 1 [.newShape lifetimeShape, .newMove 0, .moveAssign 0 1]) =
    [some (0, 1), some (0, 1), some (0, 1), some (1, 2), some (0, 1)] := by decide +kernel
example : (allocs.map fun ty => memory ty 2 [.newShape lifetimeShape, .newShape lifetimeSubshape, .copyAssign 0 1,
    .copyAssign 1 0]) = List.replicate 5 (some (1, 2)) := by decide +kernel
example : (allocs.map fun ty => memory ty 2 [.newShape lifetimeShape, .newShape lifetimeSubshape, .swap 0 1]) =
    [some (0, 2), some (0, 2), some (0, 2), some (3, 2), some (0, 2)] := by decide +kernel
example : (allocs.map fun ty => memory ty 1 [.newShape lifetimeShape, .reshape 0 lifetimeSubshape]) =
    [some (1, 1), some (1, 1), some (1, 1), some (2, 1), some (1, 1)] := by decide +kernel
example : (allocs.map fun ty => memory ty 1 [.newShape lifetimeShape, .assignFill 0 lifetimeShape 1,
    .assignFill 0 lifetimeSubshape 1, .clear 0]) = List.replicate 5 (some (1, 0)) := by decide +kernel
example : (allocs.map fun ty => blocksFor ty.defaultShape) = [0, 0, 0, 0, 0] := by decide +kernel
example : AllowedRun exampleTypes exampleProgram World.start := by decide +kernel
example : (match execAll exampleTypes exampleProgram World.start with
    | .ok w => some (w.nextBlock, heldBlocks w, allBlocks w)
    | .error _ => none) = some (6, 2, 2) := by decide +kernel

end Nda
