import Verif.Lemmas.ExceptionsConstruct
import Verif.Props.ExceptionSafety
/-
C56 for all statements: exceptions of constructors of elements.
-/
namespace Nda
open Spec

variable {V : Type}

/-- Memory has been lost, or an array cannot be destroyed. -/
def Damaged (ty : Types V) (w : World V) : Prop :=
  (∃ b blk, w.heap b = some blk ∧ ∀ z a, w.vars z = some a → a.buffer ≠ some (b, 0)) ∨
    ∃ x, w.vars x ≠ none ∧ exec ty (.delete x) w = .error .dead

theorem Ruin.damaged {x b : Nat} {w : World V} (ty : Types V) (h : Ruin x b w) : Damaged ty w := by
  cases hx : w.vars x with
  | none =>
    obtain ⟨blk, hb, _⟩ := h.dead
    refine Or.inl ⟨b, blk, hb, fun z a hz => ?_⟩
    by_cases hzx : z = x
    · subst hzx; rw [hx] at hz; simp at hz
    · exact h.other z a hzx hz
  | some a => exact Or.inr ⟨x, by rw [hx]; simp, h.delete (by rw [hx]; simp)⟩

theorem Ruin.unbalanced {x b : Nat} {w : World V} (h : Ruin x b w) : ¬ Balanced w := by
  intro hB
  obtain ⟨blk, hb, hd⟩ := h.dead
  obtain ⟨z, a, q, h1, h2, h3, _, _, _, hl⟩ := hB.owner b blk hb
  obtain rfl : z = x := by
    by_contra hz
    exact h.other z a hz h1 h2
  obtain ⟨hh, hn, _, o, ho⟩ := hd a h1
  have hq : q = 0 - a.shape.flatMin := by
    have := hh.base
    rw [h3] at this
    simpa using this
  have hl' := hl (boxList a.shape) (boxList_enumerates a.shape) o
  rw [hq, ← cnt_eq_filter (boxList_enumerates a.shape) o] at hl'
  omega

/-- C56 does not hold for any operation in which elements are constructed.  If a constructor of an element throws,
the statement is left with memory lost, or with an array that cannot be destroyed, or on its way out it destroys
elements that do not exist.  Arrays that the statement does not change when no exception is thrown have kept their
shapes and elements. -/
theorem C56_constructor (ty : Types V) (hdef : TypesOk ty) (w : World V) (hw : TryReachable ty w)
    (c : Cmd V) (hc : Allowed ty w c) (p : Plan V) (hp : p.who = .constructor) (n : Nat) :
    match execX p ty c w n with
    | .ok (.returned w' _) => exec ty c w = .ok w'
    | .ok (.thrown w') => Damaged ty w' ∧ ¬ Balanced w' ∧
        ∀ z, ¬ Changes w c z → w'.vars z = w.vars z ∧ ∀ i, elem w' z i = elem w z i
    | .error f => f = .dead := by
  let _ : Hollow V := ⟨True⟩
  have hI := hw.inv (trivial : Hollow.ok V) hdef
  have key := execX_hit hp hdef n hI hc
  obtain ⟨w0, e0, _⟩ := exec_ok hdef hI hc
  unfold Hit at key
  split
  · rename_i h; rw [h] at key; exact key
  · rename_i h
    rw [h] at key
    obtain ⟨hst, x, b, hr⟩ := key
    exact ⟨hr.damaged ty, hr.unbalanced, fun z hz => ⟨hst.vars z hz, fun i => hst.elem hI hz i⟩⟩
  · rename_i h
    rw [h, e0] at key
    simpa using key

/-! ### Which exceptions are thrown

The statements in which the constructor of element number `k` throws, and the functions of C56. -/

theorem lift_seq {f : Op V} {g : OpX V} {w w1 : World V} {n : Nat} (h : f w = .ok w1) : (lift f ⨟ g) w n = g w1 n := by
  unfold andThen lift
  rw [h]
  rfl

theorem lift_lift (f g : Op V) : (lift f ⨟ lift g) = lift fun w => f w >>= g := by
  funext w n
  unfold andThen lift
  dsimp only
  cases f w <;> rfl

theorem lift_lift3 (f g h : Op V) : (lift f ⨟ lift g ⨟ lift h) = lift fun w => f w >>= fun w => g w >>= fun w => h w := by
  rw [lift_lift, lift_lift]

theorem allocateX_quiet {p : Plan V} (hp : p.who = .constructor) (ty : Types V) (x : Nat) :
    allocateX p ty x = lift (allocate ty x) := allocateX_lift (by rw [hp]; simp) ty x

theorem pos_of_prod {s : Shape} (hn : NonNeg s) {k : Nat} (hk : (k : Int) < (s.map Dim.extent).prod) : Pos s := by
  by_contra h
  have h1 := boxList_size hn
  rw [boxList_nil h] at h1
  have := size_of_prod hk
  simp at h1
  omega

theorem assignFillX_agree [Hollow V] {p : Plan V} (hp : p.who = .constructor) {ty : Types V} {w : World V} {x : Nat} {a : Arr}
    (hI : Inv ty w) (ha : w.vars x = some a) (hh : NotHollow a) {s : Shape} (hs : ShapeOk ty s) (v : V) {k : Nat}
    (hk : (k : Int) < (s.map Dim.extent).prod) :
    assignFillX p ty x s v w k = (assignFillThrow ty x s v k w >>= fun w => .ok (.thrown w)) := by
  obtain ⟨w1, a1, b, blk, e, hsh, hr⟩ := assignFill_raw hI ha hh hs (pos_of_prod hs.nonNeg hk)
  have hn : NonNeg a1.shape := by rw [hsh]; exact hs.resolve.nonNeg
  have hk' : k < a1.shape.size := by
    have := size_of_prod hk
    rw [hsh, resolve_size hs.nonNeg]; exact this
  have hfin := constructX_throw hp ty hr.var hr.holds hn .copyConstruct v hk'
  unfold assignFillX assignFillThrow
  rw [get_ok ha, bind_ok, bind_ok, allocateX_quiet hp]
  dsimp only
  by_cases hss : a.shape = s.resolve
  · rw [if_pos hss] at e
    rw [if_pos hss, if_pos hss, lift_seq e, e, bind_ok, hfin]
  · rw [if_neg hss] at e
    have e' := congrArg (· >>= constructThrow ty x .copyConstruct v k) e
    simp only [bind_assoc, bind_ok] at e'
    rw [if_neg hss, if_neg hss, lift_lift3, lift_seq e, hfin, ← e']

theorem assignCopyX_agree [Hollow V] {p : Plan V} (hp : p.who = .constructor) {ty : Types V} {w : World V} {x y : Nat} {a o : Arr}
    (hI : Inv ty w) (ha : w.vars x = some a) (ho : w.vars y = some o) (hxy : x ≠ y) (hob : o.base ≠ none) {k : Nat}
    (hk : (k : Int) < (o.shape.map Dim.extent).prod) :
    assignArrX true p ty x y w k = (assignCopyThrow ty x y k w >>= fun w => .ok (.thrown w)) := by
  have hog := hI.good y o ho
  obtain ⟨c, sblk, hs, _⟩ := hog.full hob
  obtain ⟨w1, a1, b, blk, e, hsh, hr⟩ := assignCopy_raw hI ha hog.shape (resolve_of_known hs.known)
    (pos_of_prod hog.shape.nonNeg hk)
  have hfin := copyConstructX_throw hp ty (y := y) (o := o) (c := c) (sblk := sblk) hr.var
    (by rw [hr.step.vars y (Ne.symm hxy)]; exact ho) hr.holds
    ⟨hs.buffer, hs.base, by rw [hr.step.heap y o c (Ne.symm hxy) ho hs.buffer]; exact hs.heap, hs.arena, hs.size,
      hs.bufferSize, hs.known⟩ hsh (by rw [hsh]; exact hog.shape.nonNeg) (k := k) (by rw [hsh]; exact size_of_prod hk)
  have hbb : a.base ≠ o.base := by
    intro h
    rw [hs.base] at h
    have hg := hI.good x a ha
    obtain ⟨d, blk', hh, _⟩ := hg.full (by rw [h]; simp)
    have h' := hh.base
    rw [h] at h'
    simp only [Option.some.injEq, Prod.mk.injEq] at h'
    exact hxy (hI.disj x y a o c 0 0 ha ho (by rw [hh.buffer, ← h'.1]) hs.buffer)
  unfold assignArrX assignCopyThrow
  rw [get_ok ha, bind_ok, get_ok ho, bind_ok, bind_ok, bind_ok, if_neg hbb, if_neg hbb, allocateX_quiet hp]
  by_cases hc : (a.base.isSome && decide (a.shape = o.shape)) = true
  · rw [if_pos hc] at e
    rw [if_pos hc, if_pos hc, lift_seq e, e, bind_ok, hfin]
  · rw [if_neg hc] at e
    have e' := congrArg (· >>= copyConstructThrow ty x y k) e
    simp only [bind_assoc, bind_ok] at e'
    rw [if_neg hc, if_neg hc, lift_lift3, lift_seq e, hfin, ← e']

/-- C56: `assign(shape, value)` in which the constructor of element number `k` throws. -/
theorem C56_agree_assign_fill (ty : Types V) (hdef : TypesOk ty) (w : World V) (hw : TryReachable ty w)
    (x : Nat) (s : Shape) (v : V) (hc : Allowed ty w (.assignFill x s v)) (p : Plan V) (hp : p.who = .constructor)
    (k : Nat) (hk : (k : Int) < (s.map Dim.extent).prod) :
    execX p ty (.assignFill x s v) w k = (assignFillThrow ty x s v k w >>= fun w => .ok (.thrown w)) := by
  let _ : Hollow V := ⟨True⟩
  have hI := hw.inv (trivial : Hollow.ok V) hdef
  obtain ⟨a, ha, hh, hs⟩ := with_iff.1 hc
  exact assignFillX_agree hp hI ha hh hs v hk

/-- C56: `assign(const array&)` in which the copy constructor of element number `k` throws. -/
theorem C56_agree_assign (ty : Types V) (hdef : TypesOk ty) (w : World V) (hw : TryReachable ty w)
    (x y : Nat) (hc : Allowed ty w (.assignCopy x y)) (hxy : x ≠ y) (o : Arr) (ho : w.vars y = some o)
    (hob : o.base ≠ none) (p : Plan V) (hp : p.who = .constructor)
    (k : Nat) (hk : (k : Int) < (o.shape.map Dim.extent).prod) :
    execX p ty (.assignCopy x y) w k = (assignCopyThrow ty x y k w >>= fun w => .ok (.thrown w)) := by
  let _ : Hollow V := ⟨True⟩
  have hI := hw.inv (trivial : Hollow.ok V) hdef
  obtain ⟨a, ha, _⟩ := with_iff.1 hc
  exact assignCopyX_agree hp hI ha ho hxy hob hk

theorem buildX_thrown {a : Arr} {body : OpX V} {w : World V} {n : Nat} {r : Except Fault (World V)}
    (h : body (w.push a) n = (r >>= fun w => .ok (.thrown w))) :
    buildX a body w n = (r >>= fun w' => .ok (w'.setVar w.nextVar none)) >>= fun w => .ok (.thrown w) := by
  unfold buildX unwinding
  have : (lift (fun w => .ok (w.push a)) ⨟ body) w n = body (w.push a) n := rfl
  rw [this, h]
  cases r <;> rfl

/-- C56: `array(const array&)` in which the copy constructor of element number `k` throws. -/
theorem C56_agree_copy (ty : Types V) (hdef : TypesOk ty) (w : World V) (hw : TryReachable ty w)
    (y : Nat) (o : Arr) (ho : w.vars y = some o) (hob : o.base ≠ none) (p : Plan V) (hp : p.who = .constructor)
    (k : Nat) (hk : (k : Int) < (o.shape.map Dim.extent).prod) :
    execX p ty (.newCopy y) w k = (newCopyThrow ty y k w >>= fun w => .ok (.thrown w)) := by
  let _ : Hollow V := ⟨True⟩
  have hI := hw.inv (trivial : Hollow.ok V) hdef
  have hyn : y ≠ w.nextVar := by have := hI.lt ho; omega
  show newCopyX p ty y w k = _
  unfold newCopyX newCopyThrow
  rw [get_ok ho, bind_ok, bind_ok]
  dsimp only
  rw [buildX_thrown (assignCopyX_agree hp (push_inv hdef hI _) (by rw [push_vars, if_pos rfl])
    (by rw [push_vars, if_neg hyn]; exact ho) (Ne.symm hyn) hob hk)]

/-- C56: `array(shape, alloc)` in which the default constructor of element number `k` throws. -/
theorem C56_agree_new (ty : Types V) (hdef : TypesOk ty) (w : World V) (hw : TryReachable ty w)
    (s : Shape) (hs : ShapeOk ty s) (al : Nat) (p : Plan V) (hp : p.who = .constructor)
    (k : Nat) (hk : (k : Int) < (s.map Dim.extent).prod) :
    execX p ty (.newShapeAlloc s al) w k = (newShapeAllocThrow ty s al k w >>= fun w => .ok (.thrown w)) := by
  let _ : Hollow V := ⟨True⟩
  have hI := hw.inv (trivial : Hollow.ok V) hdef
  show newShapeAllocX p ty s al w k = _
  unfold newShapeAllocX newShapeAllocThrow
  dsimp only
  obtain ⟨w1, a1, e1, hsh, h1⟩ := allocate_prep (a := ⟨⟨al, w.nextVar, false⟩, none, 0, none, s⟩) hI (hI.step_push _)
    (hI.push _) (by rw [push_vars, if_pos rfl]) ⟨rfl, rfl, rfl⟩ hs
  have hpos : Pos a1.shape := by rw [hsh]; exact resolve_pos.2 (pos_of_prod hs.nonNeg hk)
  obtain ⟨b, blk, hh, _⟩ := h1.own.resolve_left fun h => h.2 hpos
  rw [allocateX_quiet hp, buildX_thrown (r := constructThrow ty w.nextVar .defaultConstruct ty.defaultValue k w1), e1, bind_ok]
  rw [lift_seq e1]
  exact constructX_throw hp ty h1.var hh h1.nonNeg _ _ (by rw [hsh]; show k < s.resolve.size; rw [resolve_size hs.nonNeg]; exact size_of_prod hk)

/-! ### Examples -/

def badConstruct : Plan Int := ⟨.constructor, fun _ => -7, fun _ => -8⟩

def exampleCalm : World Int := (execTryAll exampleTypes (exampleTries.take 2) World.start).toOption.getD World.start

example : TryReachable exampleTypes exampleCalm :=
  ⟨exampleTries.take 2, by decide, by decide +kernel, by
    obtain ⟨w, e, _⟩ := C78_program exampleTypes (by decide +kernel) (exampleTries.take 2) (by decide) (by decide +kernel)
    unfold exampleCalm
    rw [e]
    rfl⟩

/-- `reshape`: the third element of the new array is not constructed, and its memory is lost. -/
example : (match execX badConstruct exampleTypes (.reshape 0 [⟨0, 3, unresolved⟩, ⟨0, 2, unresolved⟩]) exampleCalm 2 with
    | .ok (.thrown w) => some ((List.range 20).filterMap fun b => (w.heap b).map fun blk => (b, aliveIn blk))
    | _ => none) = some [(0, 4), (1, 3), (2, 2)] := by decide +kernel
/-- `swap` of arrays with different allocators. -/
example : (match execX badConstruct exampleTypes (.swap 0 1) exampleCalm 5 with
    | .ok (.thrown w) => some ((w.vars 0).isSome, (w.vars 1).isSome, (exec exampleTypes (.delete 1) w).toOption.isSome)
    | _ => none) = some (true, true, false) := by decide +kernel
/-- The destructor that runs as the exception leaves `array(shape, value)`. -/
example : (match execX badConstruct exampleTypes (.newFill [⟨0, 3, unresolved⟩, ⟨0, 2, unresolved⟩] 3) exampleCalm 5 with
    | .error f => some f
    | _ => none) = some .dead := by decide +kernel
/-- Elements are not constructed by `copy`. -/
example : (match execX badConstruct exampleTypes (.write 0 [1, 1] 3) exampleCalm 0 with
    | .ok (.returned w n) => some ((elem w 0 [1, 1]).toOption, n)
    | _ => none) = some (some 3, 0) := by decide +kernel

end Nda
