import Verif.Lemmas.ArrayRun
/-
C31 (lifetimes), C32 (copies), C33 (moves), C34 (swap), C35 (reshape): the container `array`.
-/
namespace Nda
open Spec

variable {V : Type}

/-- Types used in the examples: two-dimensional dynamic shapes, values `Int`, `-1` is left in moved-from
elements and `-2` found in uninitialised memory, nothing propagates, assertions are enabled. -/
def exampleTypes : Types Int :=
  { debug := true, propagateCopy := false, propagateMove := false, propagateSwap := false
    selectOnCopy := id, defaultAlloc := 0
    defaultShape := [⟨0, 0, unresolved⟩, ⟨0, 0, unresolved⟩]
    defaultValue := 0, moved := fun _ => -1, junk := -2 }

/-- The same with a shape whose extents are the compile-time constants 2 and 2. -/
def exampleStatic : Types Int := { exampleTypes with defaultShape := [⟨0, 2, 1⟩, ⟨0, 2, 2⟩] }

/-- What a program leaves in an element. -/
def result (ty : Types V) (p : List (Cmd V)) (x : Nat) (i : Index) : Except Fault V :=
  execAll ty p World.start >>= fun w => elem w x i

/-- How a program ends. -/
def outcome (ty : Types V) (p : List (Cmd V)) : Option Fault :=
  match execAll ty p World.start with
  | .ok _ => none
  | .error f => some f

/-- How many blocks of the first `n` a program leaves behind. -/
def blocksLeft (ty : Types V) (p : List (Cmd V)) (n : Nat) : Option Nat :=
  match execAll ty p World.start with
  | .ok w => some ((List.range n).filter fun b => (w.heap b).isSome).length
  | .error _ => none

/-! ### C31 -/

/-- C31: no program whose statements are allowed goes wrong: no element outside of an allocation is
touched, no dead element is read, assigned or destroyed, no memory is released twice, with another
size or allocator or while elements are alive, no assertion fails.  At the end every allocation belongs
to one array and is alive exactly where that array has elements, and if all arrays are destroyed nothing
is allocated. -/
theorem C31_no_fault (ty : Types V) (hdef : TypesOk ty) (p : List (Cmd V))
    (hp : AllowedRun ty p World.start) :
    ∃ w, execAll ty p World.start = .ok w ∧ Balanced w ∧
      ((∀ x, w.vars x = none) → ∀ b, w.heap b = none) := by
  obtain ⟨w, e, hI⟩ := execAll_ok hdef p (inv_start ty) hp
  exact ⟨w, e, hI.balanced, hI.nothing_left⟩

/-- C31 without assertions and for shape types whose default is empty: it is enough to use existing
objects, valid shapes and indices in range. -/
theorem C31_release (ty : Types V) (hdef : TypesOk ty) (hd : ty.debug = false)
    (he : ¬ Pos ty.defaultShape) (p : List (Cmd V)) (hp : PlainRun ty p World.start) :
    ∃ w, execAll ty p World.start = .ok w ∧ Balanced w ∧
      ((∀ x, w.vars x = none) → ∀ b, w.heap b = none) :=
  C31_no_fault ty hdef p (PlainRun.allowed not_false hdef hd he p (inv_start ty) hp)

/-- C31: if the indices of an array have different addresses, no element is constructed twice. -/
theorem C31_once (ty : Types V) (hdef : TypesOk ty) (w : World V) (hw : Reachable ty w)
    (x : Nat) (a : Arr) (b : Nat) (blk : Block V) (ha : w.vars x = some a) (hbuf : a.buffer = some (b, 0))
    (hb : w.heap b = some blk) (hinj : Injective a.shape) (o : Int) : blk.live o ≤ 1 := by
  have hI := hw.inv hdef
  obtain ⟨x', a', p, hx', hbuf', hbase, _, _, _, hl⟩ := hI.balanced.owner b blk hb
  have := hI.balanced.unique x x' a a' b ha hx' hbuf hbuf'
  subst this
  rw [ha] at hx'
  simp only [Option.some.injEq] at hx'
  subst hx'
  rw [hl (boxList a.shape) ⟨boxList_nodup _, fun i => mem_boxList⟩ o]
  rw [← List.toFinset_card_of_nodup ((boxList_nodup a.shape).filter _), Finset.card_le_one]
  intro i hi j hj
  simp only [List.mem_toFinset, List.mem_filter, decide_eq_true_eq, mem_boxList] at hi hj
  exact hinj i j hi.1 hj.1 (by omega)

/-- Construct, fill, copy, move, reshape, swap, clear, destroy; two different allocators. -/
def exampleProgram : List (Cmd Int) :=
  [.newFill [⟨1, 3, unresolved⟩, ⟨-2, 2, unresolved⟩] 7, .newShapeAlloc [⟨0, 2, unresolved⟩, ⟨0, 2, 1⟩] 1,
   .write 1 [1, 0] 5, .newCopy 0, .write 0 [2, -1] 9, .copyAssign 2 1, .moveAssign 0 1,
   .reshape 2 [⟨1, 4, unresolved⟩, ⟨0, 1, unresolved⟩], .swap 0 2, .newMove 2, .clear 0, .assignFill 0 [⟨0, 1, unresolved⟩, ⟨0, 0, unresolved⟩] 3]

example : AllowedRun exampleTypes exampleProgram World.start := by decide +kernel
example : outcome exampleTypes exampleProgram = none := by decide +kernel
example : blocksLeft exampleTypes exampleProgram 20 = some 2 := by decide +kernel
example : blocksLeft exampleTypes (exampleProgram ++ [.delete 0, .delete 1, .delete 2, .delete 5]) 20 =
    some 0 := by decide +kernel
/-- Releasing an array while it is used elsewhere would be noticed: destroying the same object twice, or
accessing an element outside. -/
example : outcome exampleTypes [.newShape [⟨0, 2, 1⟩, ⟨0, 2, 2⟩], .delete 0, .delete 0] = some .noObject ∧
    outcome exampleTypes [.newShape [⟨0, 2, 1⟩, ⟨0, 2, 2⟩], .write 0 [0, 2] 5] = some .outOfBounds := by
  decide +kernel

/-- What is not allowed does go wrong (1): a shape without elements but with a negative stride.  `base_`
is computed from the null pointer. -/
theorem C31_empty_negative_stride_counterexample :
    outcome exampleTypes [.newShape [⟨0, 2, -1⟩, ⟨0, 0, 2⟩]] = some .null := by decide +kernel

/-- (2): with a default shape that has elements a moved-from array claims to have elements, but has no
memory; copying it fails an assertion, and without assertions dereferences the null pointer. -/
theorem C31_hollow_counterexample :
    outcome exampleStatic [.new, .newMove 0, .newCopy 0] = some .assertion ∧
    result { exampleStatic with debug := false } [.new, .newMove 0] 0 [0, 0] = .error .null := by
  decide +kernel

/-- (3): copying a moved-from array with dynamic strides to an array with elements fails the assertion
`shape_ == other.shape_`, because `allocate` resolves the strides of the destination only. -/
theorem C31_moved_from_source_counterexample :
    outcome exampleTypes [.newFill [⟨0, 2, unresolved⟩, ⟨0, 2, unresolved⟩] 7, .newCopy 0, .newMove 0,
      .copyAssign 1 0] = some .assertion := by decide +kernel

/-- (4): reshaping a default constructed array to a shape both of whose mins are positive fails
`assert(shape.empty())`: two negative extents of the intersection multiply to a positive size. -/
theorem C31_reshape_empty_counterexample :
    outcome exampleTypes [.new, .reshape 0 [⟨1, 2, unresolved⟩, ⟨1, 2, unresolved⟩]] = some .assertion := by
  decide +kernel

/-- (5): swapping an array with itself fails an assertion if the default shape has elements and the
allocator does not propagate. -/
theorem C31_self_swap_counterexample :
    outcome exampleStatic [.new, .swap 0 0] = some .assertion := by decide +kernel

/-! ### C32 -/

/-- Every array that has memory, or no elements, has contents. -/
theorem C32_contents (ty : Types V) (hdef : TypesOk ty) (w : World V) (hw : Reachable ty w)
    (y : Nat) (o : Arr) (ho : w.vars y = some o) (hn : NotHollow o) [Inhabited V] :
    ∃ f, Contents w y o.shape f := by
  have hI := hw.inv hdef
  refine ⟨fun i => match elem w y i with | .ok v => v | .error _ => default, ⟨o, ho, rfl⟩, ?_⟩
  intro i hi
  by_cases hb : o.base = none
  · exact absurd (pos_of_inBox hi) (hn hb)
  · obtain ⟨v, hv⟩ := (hI.good y o ho).elem_ok ho hb hi
    simp only [hv]

/-- Assigning an array to itself does nothing. -/
theorem exec_self {ty : Types V} {w : World V} (hI : Inv ty w) {x : Nat} {a : Arr} (ha : w.vars x = some a)
    (hn : NotHollow a) {c : Cmd V} (hc : c = .copyAssign x x ∨ c = .assignCopy x x ∨
      c = .moveAssign x x ∨ c = .assignMove x x) : exec ty c w = .ok w := by
  have hassert : a.base = none → assert ty a.shape.empty w = .ok w := by
    intro hb
    unfold assert check
    rw [(empty_iff_not_pos (hI.good x a ha).shape.nonNeg).2 (hn hb)]
    simp
  have htriv : assert ty (decide (a.shape = a.shape)) w = .ok w := by unfold assert check; simp
  rcases hc with rfl | rfl | rfl | rfl
  · show copyAssignOp ty x x w = _
    unfold copyAssignOp
    rw [get_ok ha, bind_ok, bind_ok, if_pos rfl]
    cases hb : a.base with
    | none =>
      show (setShapeMember x a.shape w >>= fun w => assert ty a.shape.empty w) = _
      rw [setShapeMember_ok ha, bind_ok]
      have h1 : ({ a with shape := a.shape } : Arr) = a := rfl
      rw [h1, setVar_eq_self ha, hassert hb]
    | some b => exact htriv
  · show assignCopy ty x x w = _
    unfold assignCopy
    rw [get_ok ha, bind_ok, bind_ok, if_pos rfl]
    cases hb : a.base with
    | none =>
      show (setShapeMember x a.shape w >>= fun w => assert ty a.shape.empty w) = _
      rw [setShapeMember_ok ha, bind_ok]
      have h1 : ({ a with shape := a.shape } : Arr) = a := rfl
      rw [h1, setVar_eq_self ha, hassert hb]
    | some b => exact htriv
  · show moveAssignOp ty x x w = _
    unfold moveAssignOp
    rw [get_ok ha, bind_ok, bind_ok, if_pos rfl]
    by_cases hb : a.base = none
    · have h1 : ({ a with shape := a.shape } : Arr) = a := rfl
      rw [if_neg (by rw [hb]; simp)]
      simp only [h1, setVar_eq_self ha]
      rw [get_ok ha, bind_ok]
      exact hassert hb
    · rw [if_pos (by simpa [Option.isSome_iff_ne_none] using hb)]
      exact htriv
  · show assignMove ty x x w = _
    unfold assignMove
    rw [get_ok ha, bind_ok, bind_ok, if_pos rfl]
    cases hb : a.base with
    | none =>
      show (setShapeMember x a.shape w >>= fun w => assert ty a.shape.empty w) = _
      rw [setShapeMember_ok ha, bind_ok]
      have h1 : ({ a with shape := a.shape } : Arr) = a := rfl
      rw [h1, setVar_eq_self ha, hassert hb]
    | some b => exact htriv

/-- C32: the four ways to copy.  `x` is the new array, or the array that is assigned to. -/
theorem C32_copy (ty : Types V) (hdef : TypesOk ty) (w : World V) (hw : Reachable ty w)
    (y : Nat) (o : Arr) (ho : w.vars y = some o) (hsrc : SrcOk ty o) (f : Index → V)
    (hf : Contents w y o.shape f) (c : Cmd V) (x : Nat)
    (hc : c = .newCopy y ∧ x = w.nextVar ∨ (∃ al, c = .newCopyAlloc y al) ∧ x = w.nextVar ∨
      (c = .copyAssign x y ∨ c = .assignCopy x y) ∧ ∃ a, w.vars x = some a) :
    ∃ w', exec ty c w = .ok w' ∧ Contents w' y o.shape f ∧
      (o.base ≠ none → Contents w' x o.shape f) ∧
      (o.base = none → ∃ a', w'.vars x = some a' ∧ (a'.shape = o.shape ∨ a'.shape = o.shape.resolve) ∧
        ¬ Pos a'.shape) ∧
      (x ≠ y → ∀ a' o', w'.vars x = some a' → w'.vars y = some o' → ∀ b p q, a'.base = some (b, p) →
        o'.base ≠ some (b, q)) := by
  have hI := hw.inv hdef
  have key : ∃ w' a', exec ty c w = .ok w' ∧ Inv ty w' ∧ Step (· = x) w w' ∧ Received true ty w w' x y o a' := by
    rcases hc with ⟨rfl, rfl⟩ | ⟨⟨al, rfl⟩, rfl⟩ | ⟨rfl | rfl, a, ha⟩
    · obtain ⟨w', a', e, h1, h2, _, _, h3⟩ := newCopy_ok hI hdef ho hsrc
      exact ⟨w', a', e, h1, h2, h3⟩
    · obtain ⟨w', a', e, h1, h2, _, _, h3⟩ := newCopyAlloc_ok hI hdef ho hsrc al
      exact ⟨w', a', e, h1, h2, h3⟩
    · obtain ⟨w', a', e, h1, h2, _, _, h3⟩ := copyAssignOp_ok hI hdef ha ho hsrc
      exact ⟨w', a', e, h1, h2, h3⟩
    · obtain ⟨w', a', e, h1, h2, _, _, _, h3, _⟩ := assign_ok true hI ha ho hsrc
      exact ⟨w', a', e, h1, h2.mono (by simp), h3⟩
  obtain ⟨w', a', e, hI', hst, hr⟩ := key
  have hx : o.base ≠ none → Contents w' x o.shape f := by
    intro hb
    have hs : a'.shape = o.shape := hr.shape.resolve_right fun h => hb h.1
    refine ⟨⟨a', hr.var, hs⟩, fun i hi => ?_⟩
    rw [hr.vals (Or.inl rfl) i (by rw [hs]; exact hi)]
    exact hf.2 i hi
  have hnull : o.base = none → ∃ a', w'.vars x = some a' ∧ (a'.shape = o.shape ∨ a'.shape = o.shape.resolve) ∧
      ¬ Pos a'.shape := by
    intro hb
    refine ⟨a', hr.var, hr.shape.imp id And.right, ?_⟩
    rcases hr.shape with h | ⟨_, h⟩
    · rw [h]; exact (hsrc hb).1
    · rw [h, resolve_pos]; exact (hsrc hb).1
  refine ⟨w', e, ?_, hx, hnull, ?_⟩
  · by_cases hxy : y = x
    · subst hxy
      by_cases hb : o.base = none
      · have hlt := hI.lt ho
        rcases hc with ⟨_, h⟩ | ⟨_, h⟩ | ⟨h, _⟩
        · omega
        · omega
        · rw [exec_self hI ho (fun _ => (hsrc hb).1) (by tauto)] at e
          simp only [Except.ok.injEq] at e
          rw [← e]; exact hf
      · exact hx hb
    · exact ⟨⟨o, by rw [hst.vars y hxy]; exact ho, rfl⟩, fun i hi => by
        rw [hst.elem hI hxy]; exact hf.2 i hi⟩
  · intro hxy a1 o1 ha1 ho1 b p q hp hq
    exact hxy (hI'.disj x y a1 o1 b 0 0 ha1 ho1 ((hI'.good x a1 ha1).base_block hp)
      ((hI'.good y o1 ho1).base_block hq))

/-- C32: a statement that does not create, assign or move from an array leaves it alone, whatever it
does to other arrays. -/
theorem C32_independent (ty : Types V) (hdef : TypesOk ty) (w : World V)
    (hw : Reachable ty w) (c : Cmd V) (hc : Allowed ty w c) (y : Nat) (hy : ¬ Changes w c y) :
    ∃ w', exec ty c w = .ok w' ∧ w'.vars y = w.vars y ∧ ∀ i, elem w' y i = elem w y i := by
  have hI := hw.inv hdef
  obtain ⟨w', e, _, hst, _⟩ := exec_ok hdef hI hc
  exact ⟨w', e, hst.vars y hy, fun i => hst.elem hI hy i⟩

/-- C32: and so does a whole program. -/
theorem C32_independent_program (ty : Types V) (hdef : TypesOk ty) (y : Nat)
    (p : List (Cmd V)) (w : World V) (hw : Reachable ty w) (hp : AllowedRun ty p w)
    (hy : y < w.nextVar) (hch : ∀ c ∈ p, ∀ v : World V, y < v.nextVar → ¬ Changes v c y) :
    ∃ w', execAll ty p w = .ok w' ∧ w'.vars y = w.vars y ∧ ∀ i, elem w' y i = elem w y i := by
  have hI := hw.inv hdef
  clear hw
  induction p generalizing w with
  | nil => exact ⟨w, rfl, rfl, fun _ => rfl⟩
  | cons c p ih =>
    obtain ⟨hc, hp⟩ := hp
    obtain ⟨w1, e1, hI1, hst, hle⟩ := exec_ok hdef hI hc
    rw [e1] at hp
    have hy' := hch c (List.mem_cons_self ..) w hy
    obtain ⟨w2, e2, h2, h3⟩ := ih w1 hp (by omega) (fun c' h => hch c' (List.mem_cons_of_mem _ h)) hI1
    refine ⟨w2, by rw [execAll_cons, e1, bind_ok, e2], by rw [h2, hst.vars y hy'], fun i => ?_⟩
    rw [h3, hst.elem hI hy']

/-- C32: what a write does. -/
theorem C32_write (ty : Types V) (hdef : TypesOk ty) (w : World V) (hw : Reachable ty w)
    (x : Nat) (a : Arr) (ha : w.vars x = some a) (hb : a.base ≠ none) (i : Index) (hi : InBox a.shape i)
    (v : V) : ∃ w', exec ty (.write x i v) w = .ok w' ∧ elem w' x i = .ok v ∧
      (Injective a.shape → ∀ j, InBox a.shape j → j ≠ i → elem w' x j = elem w x j) := by
  obtain ⟨w', e, _, _, _, _, h⟩ := write_ok (hw.inv hdef) ha hb hi v
  refine ⟨w', e, by rw [h i hi, if_pos rfl], fun hinj j hj hne => ?_⟩
  rw [h j hj, if_neg fun hc => hne (hinj j i hj hi hc)]

/-- C32: assigning an array to itself changes nothing. -/
theorem C32_self (ty : Types V) (hdef : TypesOk ty) (w : World V) (hw : Reachable ty w)
    (x : Nat) (a : Arr) (ha : w.vars x = some a) (hn : NotHollow a) :
    exec ty (.copyAssign x x) w = .ok w ∧ exec ty (.assignCopy x x) w = .ok w ∧
    exec ty (.moveAssign x x) w = .ok w ∧ exec ty (.assignMove x x) w = .ok w := by
  have hI := hw.inv hdef
  refine ⟨exec_self hI ha hn ?_, exec_self hI ha hn ?_, exec_self hI ha hn ?_, exec_self hI ha hn ?_⟩ <;> simp

/-- Writing to the original does not change the copy, and conversely. -/
example : let p : List (Cmd Int) := [.newFill [⟨1, 3, unresolved⟩, ⟨-2, 2, unresolved⟩] 7, .newCopy 0,
      .write 0 [2, -1] 9, .write 1 [3, -2] 4]
    result exampleTypes p 0 [2, -1] = .ok 9 ∧ result exampleTypes p 1 [2, -1] = .ok 7 ∧
    result exampleTypes p 0 [3, -2] = .ok 7 ∧ result exampleTypes p 1 [3, -2] = .ok 4 := by decide +kernel

/-! ### C33 -/

/-- C33: move construction taking over the memory (`array(array&&)` with a propagating or equal
allocator, `array(array&&, alloc)` with an equal allocator).  The new array has the members the source
had (except that it is another object), no memory is touched and no element function called; the source has no memory and the default
shape. -/
theorem C33_move_construct (ty : Types V) (hdef : TypesOk ty) (w : World V)
    (hw : Reachable ty w) (y : Nat) (o : Arr) (ho : w.vars y = some o) (c : Cmd V)
    (hc : c = .newMove y ∧ (ty.propagateMove = true ∨ o.alloc.allocated = false ∧ ty.defaultAlloc = o.alloc.arena) ∨
      c = .newMoveAlloc y o.alloc.arena ∧ o.alloc.allocated = false) :
    ∃ w' a' o', exec ty c w = .ok w' ∧ w'.vars w.nextVar = some a' ∧ w'.vars y = some o' ∧
      SameMembers a' o ∧
      w'.heap = w.heap ∧ w'.calls = w.calls ∧ (∀ i, elem w' w.nextVar i = elem w y i) ∧
      o'.base = none ∧ o'.buffer = none ∧ o'.shape = ty.defaultShape := by
  have hI := hw.inv hdef
  rcases hc with ⟨rfl, hc⟩ | ⟨rfl, hal⟩
  · obtain ⟨w', a', o', e, _, _, _, _, hy, hr, h, _⟩ := newMove_ok hI hdef ho fun h => absurd hc h
    obtain ⟨rfl, rfl, hh, hcl, hel⟩ := h hc
    exact ⟨w', _, _, e, hr.var, hy, ⟨rfl, rfl, rfl, rfl, rfl⟩, hh, hcl, hel, rfl, rfl, rfl⟩
  · obtain ⟨w', a', o', e, _, _, _, _, hy, hr, h, _⟩ := newMoveAlloc_ok hI hdef ho o.alloc.arena
      (fun h => absurd ⟨hal, rfl⟩ h)
    obtain ⟨rfl, rfl, hh, hcl, hel⟩ := h ⟨hal, rfl⟩
    exact ⟨w', _, _, e, hr.var, hy, ⟨rfl, rfl, rfl, rfl, rfl⟩, hh, hcl, hel, rfl, rfl, rfl⟩

/-- C33: if the default shape has no elements, neither has the moved-from array. -/
theorem C33_moved_from_empty (ty : Types V) (hdef : TypesOk ty) (he : ¬ Pos ty.defaultShape)
    (w : World V) (hw : Reachable ty w) (y : Nat) (o : Arr) (ho : w.vars y = some o) (w' : World V)
    (ht : ty.propagateMove = true ∨ o.alloc.allocated = false ∧ ty.defaultAlloc = o.alloc.arena) (e : exec ty (.newMove y) w = .ok w') :
    ∃ o', w'.vars y = some o' ∧ o'.shape.empty = true ∧ ∀ i, ¬ InBox o'.shape i := by
  obtain ⟨w1, a', o', e1, _, hy, _, _, _, _, _, _, hs⟩ :=
    C33_move_construct ty hdef w hw y o ho _ (Or.inl ⟨rfl, ht⟩)
  rw [e] at e1
  simp only [Except.ok.injEq] at e1
  subst e1
  refine ⟨o', hy, ?_, fun i hi => ?_⟩
  · rw [hs, empty_iff_not_pos hdef.shape.nonNeg]; exact he
  · rw [hs] at hi; exact he (pos_of_inBox hi)

/-- C33: otherwise it claims to have elements, but has no memory. -/
theorem C33_moved_from_counterexample :
    (match execAll exampleStatic [.new, .newMove 0] World.start with
      | .ok w => (w.vars 0).map fun a => (a.base, a.shape.empty, a.shape.size)
      | .error _ => none) = some (none, false, 4) := by decide +kernel

/-- C33: move assignment taking over the memory exchanges the two arrays: the moved-from array has what
the destination had. -/
theorem C33_move_assign (ty : Types V) (hdef : TypesOk ty) (w : World V)
    (hw : Reachable ty w) (x y : Nat) (a o : Arr) (ha : w.vars x = some a) (ho : w.vars y = some o)
    (hb : a.base ≠ o.base) (ht : ty.propagateMove = true ∨
      a.alloc.allocated = false ∧ o.alloc.allocated = false ∧ a.alloc.arena = o.alloc.arena) :
    ∃ w' a' o', exec ty (.moveAssign x y) w = .ok w' ∧ w'.vars x = some a' ∧ w'.vars y = some o' ∧
      SameMembers a' o ∧ SameMembers o' a ∧
      w'.heap = w.heap ∧ w'.calls = w.calls ∧ ∀ i, elem w' x i = elem w y i ∧ elem w' y i = elem w x i := by
  obtain ⟨w', a', o', e, _, _, _, hy, hr, h, _⟩ := moveAssignOp_ok (hw.inv hdef) hdef ha ho
    ⟨fun h1 h2 => absurd (h1.trans h2.symm) hb, fun _ h => absurd ht h⟩
  obtain ⟨rfl, rfl, hh, hc, hel⟩ := h hb ht
  exact ⟨w', _, _, e, hr.var, hy, ⟨rfl, rfl, rfl, rfl, rfl⟩, ⟨rfl, rfl, rfl, rfl, rfl⟩, hh, hc, fun i => ⟨hel i, elem_congr hy ha rfl rfl hh i⟩⟩

/-- C33: otherwise every element is moved: the destination gets the values, the source keeps its shape
and memory and has moved-from elements. -/
theorem C33_move_elements (ty : Types V) (hdef : TypesOk ty) (w : World V)
    (hw : Reachable ty w) (y : Nat) (o : Arr) (ho : w.vars y = some o) (hsrc : SrcOk ty o)
    (hinj : Injective o.shape) (c : Cmd V) (x : Nat)
    (hc : (c = .newMove y ∧ ty.propagateMove = false ∧
        (o.alloc.allocated = true ∨ ty.defaultAlloc ≠ o.alloc.arena) ∧ x = w.nextVar) ∨
      (∃ al, c = .newMoveAlloc y al ∧ (o.alloc.allocated = true ∨ al ≠ o.alloc.arena) ∧ x = w.nextVar) ∨
      (∃ a, c = .moveAssign x y ∧ w.vars x = some a ∧ ty.propagateMove = false ∧
        (a.alloc.allocated = true ∨ o.alloc.allocated = true ∨ a.alloc.arena ≠ o.alloc.arena) ∧
        a.base ≠ o.base)) :
    ∃ w' a', exec ty c w = .ok w' ∧ w'.vars y = some o ∧ w'.vars x = some a' ∧
      (o.base ≠ none → a'.shape = o.shape) ∧
      (∀ b p q, a'.base = some (b, p) → o.base ≠ some (b, q)) ∧
      ∀ i, InBox o.shape i → elem w' x i = elem w y i ∧ elem w' y i = (elem w y i).map ty.moved := by
  have hI := hw.inv hdef
  have hlt := hI.lt ho
  have key : ∃ w' a', exec ty c w = .ok w' ∧ Inv ty w' ∧ x ≠ y ∧ w'.vars y = some o ∧
      Received false ty w w' x y o a' ∧
      ∀ i, InBox o.shape i → elem w' y i = (elem w y i).map ty.moved := by
    rcases hc with ⟨rfl, hp, hal, rfl⟩ | ⟨al, rfl, hal, rfl⟩ | ⟨a, rfl, ha, hp, hal, hb⟩
    · have hnt : ¬ TakesNew ty o := by unfold TakesNew; rcases hal with h | h <;> simp [hp, h]
      obtain ⟨w', a', o', e, h1, _, _, _, hy, hr, _, h⟩ := newMove_ok hI hdef ho fun _ => hsrc
      obtain ⟨rfl, h⟩ := h hnt
      exact ⟨w', a', e, h1, by omega, hy, hr, h hinj⟩
    · obtain ⟨w', a', o', e, h1, _, _, _, hy, hr, _, h⟩ := newMoveAlloc_ok hI hdef ho al fun _ => hsrc
      obtain ⟨rfl, h⟩ := h (by unfold SameAlloc; rcases hal with h | h <;> simp [h])
      exact ⟨w', a', e, h1, by omega, hy, hr, h hinj⟩
    · have hnt : ¬ TakesAssign ty a o := by unfold TakesAssign; rcases hal with h | h | h <;> simp [hp, h]
      obtain ⟨w', a', o', e, h1, _, _, hy, hr, _, _, h⟩ := moveAssignOp_ok hI hdef ha ho
        ⟨fun h1 h2 => absurd (h1.trans h2.symm) hb, fun _ _ => hsrc⟩
      obtain ⟨rfl, h⟩ := h hb hnt
      refine ⟨w', a', e, h1, ?_, hy, hr, h hinj⟩
      rintro rfl
      rw [ha] at ho
      simp only [Option.some.injEq] at ho
      exact hb (by rw [ho])
  obtain ⟨w', a', e, hI', hxy, hy, hr, hmv⟩ := key
  refine ⟨w', a', e, hy, hr.var, fun hb => hr.shape.resolve_right fun h => hb h.1, ?_, fun i hi => ⟨?_, hmv i hi⟩⟩
  · intro b p q hp hq
    exact hxy (hI'.disj x y a' o b 0 0 hr.var hy ((hI'.good x a' hr.var).base_block hp)
      ((hI'.good y o hy).base_block hq))
  · have hb : o.base ≠ none := fun h => (hsrc h).1 (pos_of_inBox hi)
    exact hr.vals (Or.inr hinj) i (by rw [hr.shape.resolve_right fun h => hb h.1]; exact hi)

/-- Taking over with equal allocators; moving elements with different ones (arena 1 and 0). -/
example : let p : List (Cmd Int) := [.newFill [⟨1, 3, unresolved⟩, ⟨-2, 2, unresolved⟩] 7,
      .newFillAlloc [⟨0, 2, unresolved⟩, ⟨0, 2, unresolved⟩] 8 1, .newMove 0, .newMove 1]
    result exampleTypes p 2 [2, -1] = .ok 7 ∧ result exampleTypes p 0 [2, -1] = .error .null ∧
    result exampleTypes p 3 [1, 1] = .ok 8 ∧ result exampleTypes p 1 [1, 1] = .ok (-1) := by decide +kernel
/-- Move assignment exchanges. -/
example : let p : List (Cmd Int) := [.newFill [⟨1, 3, unresolved⟩, ⟨-2, 2, unresolved⟩] 7,
      .newFill [⟨0, 2, unresolved⟩, ⟨0, 2, unresolved⟩] 8, .moveAssign 0 1]
    result exampleTypes p 0 [1, 1] = .ok 8 ∧ result exampleTypes p 1 [3, -2] = .ok 7 := by decide +kernel

/-! ### C34 -/

/-- C34: `swap` exchanges shapes and elements, under both policies. -/
theorem C34_swap (ty : Types V) (hdef : TypesOk ty) (w : World V) (hw : Reachable ty w)
    (x y : Nat) (a o : Arr) (ha : w.vars x = some a) (ho : w.vars y = some o)
    (hsa : SrcOk ty a) (hso : SrcOk ty o) (hself : x = y → ty.debug = true → ¬ Pos ty.defaultShape)
    (hinj : ty.propagateSwap = true ∨ Injective a.shape ∧ Injective o.shape)
    (f g : Index → V) (hf : Contents w x a.shape f) (hg : Contents w y o.shape g) :
    ∃ w', exec ty (.swap x y) w = .ok w' ∧
      (o.base ≠ none → Contents w' x o.shape g) ∧ (a.base ≠ none → Contents w' y a.shape f) ∧
      (o.base = none → ∃ a', w'.vars x = some a' ∧ (a'.shape = o.shape ∨ a'.shape = o.shape.resolve) ∧
        ¬ Pos a'.shape) ∧
      (a.base = none → ∃ o', w'.vars y = some o' ∧ (o'.shape = a.shape ∨ o'.shape = a.shape.resolve) ∧
        ¬ Pos o'.shape) := by
  obtain ⟨w', a', o', e, _, _, _, hr, hr', hp⟩ := swap_ok (hw.inv hdef) hdef ha ho hsa hso hself
  have main : ∀ {x y : Nat} {a' o : Arr} {g : Index → V}, w.vars y = some o → SrcOk ty o →
      Received false ty w w' x y o a' → (Injective o.shape ∨ a'.base = o.base ∧ w'.heap = w.heap) →
      Contents w y o.shape g → (o.base ≠ none → Contents w' x o.shape g) ∧
      (o.base = none → ∃ a', w'.vars x = some a' ∧ (a'.shape = o.shape ∨ a'.shape = o.shape.resolve) ∧
        ¬ Pos a'.shape) := by
    intro x y a' o g ho hso hr hi hg
    constructor
    · intro hb
      have hs := hr.shape.resolve_right fun h => hb h.1
      refine ⟨⟨a', hr.var, hs⟩, fun i hi' => ?_⟩
      rw [← hg.2 i hi']
      rcases hi with hi | ⟨hbb, hh⟩
      · exact hr.vals (Or.inr hi) i (by rw [hs]; exact hi')
      · exact elem_congr hr.var ho hbb hs hh i
    · intro hb
      refine ⟨a', hr.var, hr.shape.imp id And.right, ?_⟩
      rcases hr.shape with h | ⟨_, h⟩
      · rw [h]; exact (hso hb).1
      · rw [h, resolve_pos]; exact (hso hb).1
  have m1 := main ho hso hr (hinj.symm.imp And.right fun h => ⟨by rw [(hp h).1], (hp h).2.2.1⟩) hg
  have m2 := main ha hsa hr' (hinj.symm.imp And.left fun h => ⟨by rw [(hp h).2.1], (hp h).2.2.1⟩) hf
  exact ⟨w', e, m1.1, m2.1, m1.2, m2.2⟩

/-- C34: with propagating allocators all members are exchanged, and no element function is called. -/
theorem C34_propagate (ty : Types V) (w : World V)
    (x y : Nat) (a o : Arr) (ha : w.vars x = some a) (ho : w.vars y = some o) (hp : ty.propagateSwap = true) :
    ∃ w' a' o', exec ty (.swap x y) w = .ok w' ∧ w'.vars x = some a' ∧ w'.vars y = some o' ∧
      SameMembers a' o ∧ SameMembers o' a ∧
      w'.heap = w.heap ∧ w'.calls = w.calls := by
  have e : exec ty (.swap x y) w = swapAllocator x y w >>= swapExceptAllocator x y := by
    show swap ty x y w = _
    unfold swap
    rw [if_pos hp]
  by_cases hxy : x = y
  · subst hxy
    rw [ha] at ho
    simp only [Option.some.injEq] at ho
    subst ho
    have h1 : swapAllocator x x w = .ok w := by
      unfold swapAllocator
      rw [get_ok ha, bind_ok, bind_ok]
      simp only [setVar_eq_self ha]
    rw [e, h1, bind_ok, swapExceptAllocator_ok ha ha]
    simp only [setVar_eq_self ha]
    exact ⟨w, _, _, rfl, ha, ha, ⟨rfl, rfl, rfl, rfl, rfl⟩, ⟨rfl, rfl, rfl, rfl, rfl⟩, rfl, rfl⟩
  · obtain ⟨w', e', hv, hh, _, _, hc⟩ := swapBoth_ok hxy ha ho
    exact ⟨w', _, _, e.trans e', (hv x).trans ((if_neg hxy).trans (if_pos rfl)),
      (hv y).trans (if_pos rfl),
      ⟨rfl, rfl, rfl, rfl, rfl⟩, ⟨rfl, rfl, rfl, rfl, rfl⟩, hh, hc⟩

/-- Different allocators that do not propagate: the elements are moved one by one. -/
example : let p : List (Cmd Int) := [.newFill [⟨1, 3, unresolved⟩, ⟨-2, 2, unresolved⟩] 7,
      .newFillAlloc [⟨0, 2, unresolved⟩, ⟨0, 2, unresolved⟩] 8 1, .swap 0 1]
    result exampleTypes p 0 [1, 1] = .ok 8 ∧ result exampleTypes p 1 [3, -2] = .ok 7 ∧
    result { exampleTypes with propagateSwap := true } p 0 [1, 1] = .ok 8 ∧
    result { exampleTypes with propagateSwap := true } p 1 [3, -2] = .ok 7 := by decide +kernel

/-! ### C35 -/

/-- C35: `reshape` keeps the elements whose indices are in range of both shapes. -/
theorem C35_reshape (ty : Types V) (hdef : TypesOk ty) (w : World V) (hw : Reachable ty w)
    (x : Nat) (a : Arr) (ha : w.vars x = some a) (s : Shape) (hn : NotHollow a) (hs : ShapeOk ty s)
    (hpre : ReshapeOk ty a s) (hia : Injective a.shape) (his : Injective s.resolve)
    (f : Index → V) (hf : Contents w x a.shape f) :
    ∃ w' a', exec ty (.reshape x s) w = .ok w' ∧ w'.vars x = some a' ∧ a'.shape = s.resolve ∧
      (∀ i, InBox s.resolve i → InBox a.shape i → elem w' x i = .ok (f i)) ∧
      (∀ i, InBox s.resolve i → ¬ InBox a.shape i → elem w' x i = .ok ty.defaultValue) := by
  obtain ⟨w', a', e, _, _, _, hv, hsh, _, h⟩ := reshape_ok (hw.inv hdef) hdef ha hn hs hpre
  exact ⟨w', a', e, hv, hsh, fun i hi hi' => ((h hia his i hi).1 hi').trans (hf.2 i hi'),
    fun i hi => (h hia his i hi).2⟩

/-- A 3x2 array becomes 4x1 with other mins: two elements are kept. -/
example : let p : List (Cmd Int) := [.newFill [⟨1, 3, unresolved⟩, ⟨-2, 2, unresolved⟩] 7,
      .reshape 0 [⟨2, 4, unresolved⟩, ⟨-1, 1, unresolved⟩]]
    (List.map (fun i => result exampleTypes p 0 [i, -1]) [2, 3, 4, 5] = [.ok 7, .ok 7, .ok 0, .ok 0]) ∧
    result exampleTypes p 0 [2, -2] = .error .outOfBounds := by decide +kernel
/-- Disjoint shapes, in both dims: nothing is kept. -/
example : let p : List (Cmd Int) := [.newFill [⟨1, 3, unresolved⟩, ⟨-2, 2, unresolved⟩] 7,
      .reshape 0 [⟨10, 2, unresolved⟩, ⟨10, 1, unresolved⟩]]
    List.map (fun i => result exampleTypes p 0 [i, 10]) [10, 11] = [.ok 0, .ok 0] := by decide +kernel

end Nda
