import Verif.Lemmas.ArrayBalance
import Verif.Props.Array
/-
C63: which member functions of the element type the operations of `array` call, and how often.
-/
namespace Nda
open Spec

variable {V : Type}

/-- C63: the calls of a statement are those of the table `callsOf`, in this order. -/
theorem C63_statement (ty : Types V) (hdef : TypesOk ty) (w : World V) (hw : Reachable ty w) (c : Cmd V)
    (hc : Allowed ty w c) :
    ∃ w', exec ty c w = .ok w' ∧ w'.calls = w.calls ++ callsOf ty w c := by
  have hI := hw.inv hdef
  obtain ⟨w', e, _⟩ := exec_ok hdef hI hc
  exact ⟨w', e, exec_calls hdef hI hc e⟩

/-- C63: after every program as many elements have been constructed as have been destroyed and are in memory of
the arrays that still exist. -/
theorem C63_balance (ty : Types V) (hdef : TypesOk ty) (p : List (Cmd V)) (hp : AllowedRun ty p World.start) :
    ∃ w, execAll ty p World.start = .ok w ∧
      w.calls.countP Call.begins = w.calls.count .destroy + allOwned w := by
  obtain ⟨w, e, hI⟩ := execAll_ok hdef p (inv_start ty) hp
  refine ⟨w, e, ?_⟩
  rw [(post_execAll p bal_start w e).eq, hI.count]

/-- C63: if no array is left, every constructed element has been destroyed. -/
theorem C63_all_destroyed (ty : Types V) (hdef : TypesOk ty) (p : List (Cmd V))
    (hp : AllowedRun ty p World.start) (w : World V) (e : execAll ty p World.start = .ok w)
    (hw : ∀ x, w.vars x = none) : w.calls.countP Call.begins = w.calls.count .destroy := by
  obtain ⟨w', e', h⟩ := C63_balance ty hdef p hp
  rw [e, Except.ok.injEq] at e'
  subst e'
  rw [h]
  have : allOwned w = 0 := by
    refine List.sum_eq_zero fun n hn => ?_
    obtain ⟨x, _, rfl⟩ := List.mem_map.1 hn
    simp only [hw]
  omega

/-- The statements that do not ask for copies.  `make_move` from an rvalue is not among them (see below). -/
def Cmd.moveOnly : Cmd V → Bool
  | .new => true
  | .newAlloc _ => true
  | .newShape _ => true
  | .newShapeAlloc _ _ => true
  | .newMove _ => true
  | .newMoveAlloc _ _ => true
  | .delete _ => true
  | .moveAssign _ _ => true
  | .assignMove _ _ => true
  | .clear _ => true
  | .reshape _ _ => true
  | .swap _ _ => true
  | .makeMove _ _ _ => true
  | .makeMoveRef _ _ _ _ _ => true
  | .moveRef _ _ _ _ _ _ => true
  | .transform _ _ _ _ => true
  | _ => false

theorem moveOnly_calls (ty : Types V) (w : World V) (c : Cmd V) (h : c.moveOnly = true) :
    ∀ k ∈ callsOf ty w c, k ≠ .copyConstruct ∧ k ≠ .copyAssign := by
  have ht : ∀ (n : Nat) (k : Call), k ≠ .copyConstruct → k ≠ .copyAssign → ∀ j ∈ times n k,
      j ≠ .copyConstruct ∧ j ≠ .copyAssign := by
    intro n k h1 h2 j hj
    rw [List.eq_of_mem_replicate hj]; exact ⟨h1, h2⟩
  have happ : ∀ l m : List Call, (∀ k ∈ l, k ≠ .copyConstruct ∧ k ≠ .copyAssign) →
      (∀ k ∈ m, k ≠ .copyConstruct ∧ k ≠ .copyAssign) → ∀ k ∈ l ++ m, k ≠ .copyConstruct ∧ k ≠ .copyAssign := by
    intro l m h1 h2 k hk
    rcases List.mem_append.1 hk with h | h
    · exact h1 k h
    · exact h2 k h
  have hnil : ∀ k ∈ ([] : List Call), k ≠ .copyConstruct ∧ k ≠ .copyAssign := by simp
  cases c <;> simp only [Cmd.moveOnly, Bool.false_eq_true] at h <;> simp only [callsOf, callsOf.of] <;>
    (repeat' first
      | (refine ht _ _ ?_ ?_ <;> decide)
      | exact hnil
      | refine happ _ _ ?_ ?_
      | split)

/-- C63: programs without statements that ask for copies can be used with elements that cannot be copied: no copy
constructor and no copy assignment is called. -/
theorem C63_move_only (ty : Types V) (hdef : TypesOk ty) (p : List (Cmd V)) (hp : AllowedRun ty p World.start)
    (hm : ∀ c ∈ p, c.moveOnly = true) :
    ∃ w, execAll ty p World.start = .ok w ∧ ∀ k ∈ w.calls, k ≠ .copyConstruct ∧ k ≠ .copyAssign := by
  obtain ⟨w, e, _⟩ := execAll_ok hdef p (inv_start ty) hp
  refine ⟨w, e, ?_⟩
  have main : ∀ (p : List (Cmd V)) (v : World V), Inv ty v → AllowedRun ty p v → (∀ c ∈ p, c.moveOnly = true) →
      (∀ k ∈ v.calls, k ≠ .copyConstruct ∧ k ≠ .copyAssign) → execAll ty p v = .ok w →
      ∀ k ∈ w.calls, k ≠ .copyConstruct ∧ k ≠ .copyAssign := by
    intro p
    induction p with
    | nil =>
      intro v _ _ _ hv e
      obtain rfl : v = w := by simpa [execAll, pure, Except.pure] using e
      exact hv
    | cons c p ih =>
      intro v hI hp hm hv e
      obtain ⟨v', e', hI', _⟩ := exec_ok hdef hI hp.1
      have hp' := hp.2
      rw [execAll_cons, e', bind_ok] at e
      rw [e'] at hp'
      refine ih v' hI' hp' (fun c hc => hm c (by simp [hc])) ?_ e
      intro k hk
      rw [exec_calls hdef hI hp.1 e'] at hk
      rcases List.mem_append.1 hk with h | h
      · exact hv k h
      · exact moveOnly_calls ty v c (hm c (by simp)) k h
  exact main p _ (inv_start ty) hp hm (by simp [World.start]) e

/-! ### The counts of test/array_lifetime.cpp -/

/-- The calls after the first `n` statements of a program: default constructors, copy constructors, move
constructors, copy assignments, move assignments, destructors. -/
def tally (ty : Types V) (n : Nat) (p : List (Cmd V)) : Option (List Nat) :=
  match execAll ty (p.take n) World.start with
  | .error _ => none
  | .ok w =>
    match execAll ty (p.drop n) { w with calls := [] } with
    | .error _ => none
    | .ok w => some [w.calls.count .defaultConstruct, w.calls.count .copyConstruct, w.calls.count .moveConstruct,
        w.calls.count .copyAssign, w.calls.count .moveAssign, w.calls.count .destroy]

/-- test/array_lifetime.cpp:22-23. -/
def lifetimeShape : Shape := [⟨-2, 5, 2⟩, ⟨4, 10, 20⟩]
def lifetimeSubshape : Shape := [⟨-1, 4, 2⟩, ⟨5, 7, 20⟩]

/-- test/array_lifetime.cpp:29, 75, 76, 30, 31: `std_alloc`, `movable_custom_alloc`, `immovable_custom_alloc`,
`auto_alloc_big`, `auto_alloc_small`. -/
def stdAlloc : Types Int := { exampleTypes with propagateMove := true }
def movableAlloc : Types Int := { exampleTypes with propagateCopy := true, propagateMove := true, propagateSwap := true }
def immovableAlloc : Types Int := exampleTypes
def autoBig : Types Int := { exampleTypes with inlineSize := 256 }
def autoSmall : Types Int := { exampleTypes with inlineSize := 32 }
def allocs : List (Types Int) := [stdAlloc, movableAlloc, immovableAlloc, autoBig, autoSmall]

/-- Lines 78-95, 97-117. -/
example : (allocs.map fun ty => tally ty 0 [.newShape lifetimeShape, .delete 0]) =
    List.replicate 5 (some [50, 0, 0, 0, 0, 50]) := by decide +kernel
/-- Lines 119-137; the argument of the constructor is not counted here. -/
example : (allocs.map fun ty => tally ty 0 [.newFill lifetimeShape 3, .delete 0]) =
    List.replicate 5 (some [0, 50, 0, 0, 0, 50]) := by decide +kernel
/-- Lines 139-168. -/
example : (allocs.map fun ty => tally ty 1 [.newShape lifetimeShape, .newCopy 0, .delete 1]) =
    List.replicate 5 (some [0, 50, 0, 0, 0, 50]) := by decide +kernel
example : (allocs.map fun ty => tally ty 1 [.newShape lifetimeShape, .newShape lifetimeSubshape,
      .copyRef 0 lifetimeShape 0 1 lifetimeSubshape 0, .delete 1]) =
    List.replicate 5 (some [28, 0, 0, 28, 0, 28]) := by decide +kernel
/-- Lines 170-216. -/
example : (allocs.map fun ty => tally ty 1 [.newShape lifetimeShape, .newMove 0, .delete 1, .delete 0]) =
    [some [0, 0, 0, 0, 0, 50], some [0, 0, 0, 0, 0, 50], some [0, 0, 0, 0, 0, 50], some [0, 0, 50, 0, 0, 100],
     some [0, 0, 0, 0, 0, 50]] := by decide +kernel
example : (allocs.map fun ty => tally ty 1 [.newShape lifetimeShape, .newShape lifetimeSubshape,
      .moveRef 0 lifetimeShape 0 1 lifetimeSubshape 0, .delete 1, .delete 0]) =
    List.replicate 5 (some [28, 0, 0, 0, 28, 78]) := by decide +kernel
/-- Lines 218-250. -/
example : (allocs.map fun ty => tally ty 1 [.newShape lifetimeShape, .newMoveAlloc 0 0, .delete 1, .delete 0]) =
    [some [0, 0, 0, 0, 0, 50], some [0, 0, 0, 0, 0, 50], some [0, 0, 0, 0, 0, 50], some [0, 0, 50, 0, 0, 100],
     some [0, 0, 0, 0, 0, 50]] := by decide +kernel
/-- Lines 252-274. -/
example : (allocs.map fun ty => tally ty 1 [.newShape lifetimeShape, .new, .copyAssign 1 0, .delete 1]) =
    List.replicate 5 (some [0, 50, 0, 0, 0, 50]) := by decide +kernel
/-- Lines 276-307. -/
example : (allocs.map fun ty => tally ty 1 [.newShape lifetimeShape, .new, .moveAssign 1 0, .delete 1, .delete 0]) =
    [some [0, 0, 0, 0, 0, 50], some [0, 0, 0, 0, 0, 50], some [0, 0, 0, 0, 0, 50], some [0, 0, 50, 0, 0, 100],
     some [0, 0, 0, 0, 0, 50]] := by decide +kernel
/-- Lines 309-328. -/
example : (allocs.map fun ty => tally ty 0 [.newShape lifetimeShape, .clear 0]) =
    List.replicate 5 (some [50, 0, 0, 0, 0, 50]) := by decide +kernel
/-- Lines 330-368. -/
example : (allocs.map fun ty => tally ty 1 [.newShape lifetimeShape, .reshape 0 lifetimeShape]) =
    List.replicate 5 (some [0, 0, 0, 0, 0, 0]) := by decide +kernel
example : (allocs.map fun ty => tally ty 2 [.newShape lifetimeShape, .reshape 0 lifetimeShape,
      .reshape 0 lifetimeSubshape]) =
    [some [28, 0, 0, 0, 28, 50], some [28, 0, 0, 0, 28, 50], some [28, 0, 0, 0, 28, 50],
     some [28, 0, 28, 0, 28, 78], some [28, 0, 0, 0, 28, 50]] := by decide +kernel
/-- Lines 370-402. -/
example : (allocs.map fun ty => tally ty 2 [.newShape lifetimeShape,
      .newShape [⟨0, 50, unresolved⟩, ⟨0, 1, unresolved⟩], .swap 0 1]) =
    [some [0, 0, 0, 0, 0, 0], some [0, 0, 0, 0, 0, 0], some [0, 0, 0, 0, 0, 0], some [0, 0, 150, 0, 0, 150],
     some [0, 0, 0, 0, 0, 0]] := by decide +kernel

/-- Lines 404-446; the objects are numbered in the order of their construction, and the shapes are
smaller. -/
def lifetimeLeaks : List (Cmd Int) :=
  let s n m : Shape := [⟨0, n, unresolved⟩, ⟨0, m, unresolved⟩]
  [.new, .newShape [⟨-2, 2, 2⟩, ⟨4, 3, 20⟩], .newShape (s 2 2), .newShape (s 3 1), .newShape (s 1 2), .newCopy 1, .newCopy 2,
   .newCopy 6, .newCopy 0, .newCopy 1, .newCopy 0, .new, .copyAssign 11 1, .copyAssign 11 2, .copyAssign 11 2,
   .copyAssign 11 1, .copyAssign 11 1, .copyAssign 11 2, .copyAssign 11 1, .copyAssign 11 2, .moveAssign 11 1,
   .moveAssign 11 2, .moveAssign 11 6, .copyAssign 11 7, .copyAssign 11 5, .copyAssign 11 5, .clear 5,
   .copyAssign 11 5, .new, .assignCopy 12 3, .assignCopy 12 4, .assignCopy 12 4, .assignCopy 12 3, .assignCopy 12 4,
   .assignFill 12 [⟨-2, 2, 2⟩, ⟨4, 3, 20⟩] 3, .assignMove 12 3, .assignCopy 12 4, .assignMove 12 4] ++
  (List.range 13).reverse.map .delete

example : AllowedRun autoBig lifetimeLeaks World.start := by decide +kernel
example : (allocs.map fun ty => tally ty 0 lifetimeLeaks) =
    [some [15, 96, 5, 0, 0, 116], some [15, 96, 5, 0, 0, 116], some [15, 96, 5, 0, 0, 116],
     some [15, 96, 19, 0, 0, 130], some [15, 96, 19, 0, 0, 130]] := by decide +kernel

/-! ### What the table shows -/

/-- Default constructing and destroying before filling: with a shape type all of whose extents are compile-time
constants, `array(shape, value)` and `array(const array&, alloc)` default construct every element first, and so
are not usable for elements without a default constructor. -/
theorem C63_fill_static :
    tally exampleStatic 0 [.newFill exampleStatic.defaultShape 7] = some [4, 4, 0, 0, 0, 4] ∧
    tally exampleStatic 1 [.new, .newCopyAlloc 0 0] = some [4, 4, 0, 0, 0, 4] := by decide +kernel

/-- Swapping two arrays that have the same allocator, which is not the default one and does not propagate, moves
the elements of the second array twice, although pointers could be exchanged. -/
theorem C63_swap_same_allocator :
    tally exampleTypes 2 [.newShapeAlloc lifetimeShape 1, .newShapeAlloc lifetimeSubshape 1, .swap 0 1] =
      some [0, 0, 56, 0, 0, 56] := by decide +kernel

/-- `make_move(std::move(a), shape)` copies the elements if the shape and the allocator stay the same, and moves
them if they do not. -/
theorem C63_make_move_copies :
    tally exampleTypes 1 [.newShape lifetimeShape, .makeMoveRvalue 0 lifetimeShape 0] = some [0, 50, 0, 0, 0, 0] ∧
    tally exampleTypes 1 [.newShape lifetimeShape, .makeMoveRvalue 0 lifetimeShape 1] = some [50, 0, 0, 0, 50, 0] := by
  decide +kernel

/-! ### Examples -/

example : AllowedRun exampleTypes exampleProgram World.start := by decide +kernel
example : (match execAll exampleTypes exampleProgram World.start with
    | .ok w => some (w.calls.countP Call.begins, w.calls.count .destroy, allOwned w)
    | .error _ => none) = some (28, 20, 8) := by decide +kernel
example : [Cmd.newShape lifetimeShape, .newMove 0, .swap 0 1, .reshape 0 lifetimeSubshape].map
    (Cmd.moveOnly (V := Int)) = [true, true, true, true] := rfl

end Nda
