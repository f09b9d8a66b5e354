import Verif.Lemmas.ArrayBalance
/-
Memory that has been given back, and where the memory of an array goes.
-/
namespace Nda
open Spec

variable {V : Type}

/-- The allocation `c` has been given back. -/
def Gone (c : Nat) (w : World V) : Prop := w.heap c = none ∧ c < w.nextBlock

theorem Gone.setVar {c : Nat} {w : World V} (h : Gone c w) (x : Nat) (a : Option Arr) : Gone c (w.setVar x a) := h

theorem Gone.push {c : Nat} {w : World V} (h : Gone c w) (a : Arr) : Gone c (w.push a) := h

section
variable {c : Nat}

theorem gone_setBlock {w : World V} (hw : Gone c w) {b : Nat} {o : Int} {blk : Block V} (hb : w.block b o = .ok blk)
    (x : Option (Block V)) : (w.setBlock b x).heap c = none := by
  have hne : c ≠ b := by
    rintro rfl
    unfold World.block at hb
    rw [hw.1] at hb
    simp at hb
  rw [setBlock_heap, if_neg hne]
  exact hw.1

theorem gone_constructAt' {k : Call} {b : Nat} {o : Int} {v : V} {w w' : World V} (hw : Gone c w)
    (h : constructAt k b o v w = .ok w') : Gone c w' := by
  obtain ⟨blk, hb, h⟩ := ok_of_bind h
  simp only [Except.ok.injEq] at h
  subst h
  exact ⟨gone_setBlock hw hb _, hw.2⟩

theorem gone_destroyAt {b : Nat} {o : Int} {w w' : World V} (hw : Gone c w)
    (h : destroyAt b o w = .ok w') : Gone c w' := by
  obtain ⟨blk, hb, h⟩ := ok_of_bind h
  split at h
  · simp at h
  · simp only [Except.ok.injEq] at h
    subst h
    exact ⟨gone_setBlock hw hb _, hw.2⟩

theorem gone_assignAt {k : Call} {b : Nat} {o : Int} {v : V} {w w' : World V} (hw : Gone c w)
    (h : assignAt k b o v w = .ok w') : Gone c w' := by
  obtain ⟨blk, hb, h⟩ := ok_of_bind h
  split at h
  · simp at h
  · simp only [Except.ok.injEq] at h
    subst h
    exact ⟨gone_setBlock hw hb _, hw.2⟩

theorem gone_movedFromAt {ty : Types V} {b : Nat} {o : Int} {w w' : World V} (hw : Gone c w)
    (h : movedFromAt ty b o w = .ok w') : Gone c w' := by
  obtain ⟨blk, hb, h⟩ := ok_of_bind h
  simp only [Except.ok.injEq] at h
  subst h
  exact ⟨gone_setBlock hw hb _, hw.2⟩

theorem gone_free {w w' : World V} {b : Nat} {blk : Block V} (hw : Gone c w) (_ : w.heap b = some blk)
    (h : w.free b blk = .ok w') : Gone c w' := by
  unfold World.free at h
  split at h
  · simp only [Except.ok.injEq] at h
    subst h
    refine ⟨?_, hw.2⟩
    rw [setBlock_heap]
    split
    · rfl
    · exact hw.1
  · simp at h

theorem gone_bind {β : Type} {m : Except Fault (World V)} {f : World V → Except Fault β} {P : β → Prop}
    (h1 : Post m (Gone c)) (h2 : ∀ w, (Gone c) w → Post (f w) P) : Post (m >>= f) P := by
  intro r hr
  obtain ⟨w, hw, h⟩ := ok_of_bind hr
  exact h2 w (h1 w hw) r h

theorem gone_assert {ty : Types V} {b : Bool} {w : World V} (hw : (Gone c) w) : Post (assert ty b w) (Gone c) := by
  intro r hr; obtain ⟨_, rfl⟩ := ok_of_assert hr; exact hw

theorem gone_check {f : Fault} {b : Bool} {w : World V} (hw : (Gone c) w) : Post (check f b w) (Gone c) := by
  intro r hr; obtain ⟨_, rfl⟩ := ok_of_check hr; exact hw

theorem gone_foldlM {α : Type} {f : World V → α → Except Fault (World V)} (hf : ∀ w p, (Gone c) w → Post (f w p) (Gone c))
    (l : List α) {w : World V} (hw : (Gone c) w) : Post (l.foldlM f w) (Gone c) := by
  induction l generalizing w with
  | nil => exact post_ok hw
  | cons a l ih =>
    rw [List.foldlM_cons]
    exact gone_bind (hf w a hw) fun w hw => ih hw

theorem gone_constructAt {k : Call} {b : Nat} {o : Int} {v : V} {w : World V} (hw : (Gone c) w) :
    Post (constructAt k b o v w) (Gone c) := fun _ h => gone_constructAt' hw h

theorem gone_release {ty : Types V} {al : Allocator} {p : Ptr} {n : Nat} {w : World V} (hw : (Gone c) w) :
    Post (release ty al p n w) fun r => (Gone c) r.1 := by
  unfold release
  split
  · exact post_error
  · split
    · exact post_error
    · rename_i hb
      split
      · refine post_bind fun w1 h1 => ?_
        obtain ⟨_, rfl⟩ := ok_of_assert h1
        exact post_bind fun w2 h2 => post_ok (gone_free hw hb h2)
      · split
        · exact post_error
        · exact post_bind fun w2 h2 => post_ok (gone_free hw hb h2)

theorem gone_allocate {ty : Types V} {x : Nat} {w : World V} (hw : (Gone c) w) : Post (allocate ty x w) (Gone c) := by
  unfold allocate
  refine post_bind fun a _ => ?_
  refine gone_bind (gone_assert hw) fun w hw => ?_
  dsimp only
  split
  · refine post_ok (Gone.setVar ?_ _ _)
    refine ⟨?_, Nat.lt_succ_of_lt hw.2⟩
    have := hw.2
    simp only [World.setBlock]
    rw [if_neg (by omega)]
    exact hw.1
  · exact gone_bind (gone_check hw) fun w hw => post_ok (hw.setVar _ _)

theorem gone_construct {ty : Types V} {x : Nat} {k : Call} {v : V} {w : World V} (hw : (Gone c) w) :
    Post (construct ty x k v w) (Gone c) := by
  unfold construct
  refine post_bind fun a _ => ?_
  refine gone_bind (gone_assert hw) fun w hw => ?_
  split
  · exact gone_assert hw
  · exact gone_foldlM (fun w p hw => gone_constructAt hw) _ hw

theorem gone_destroy {ty : Types V} {x : Nat} {w : World V} (hw : (Gone c) w) : Post (destroy ty x w) (Gone c) := by
  unfold destroy
  refine post_bind fun a _ => ?_
  refine gone_bind (gone_assert hw) fun w hw => ?_
  split
  · exact gone_assert hw
  · exact gone_foldlM (fun w p hw _ h => gone_destroyAt hw h) _ hw

theorem gone_forEachPair {ty : Types V} {src dst : Shape} {p q : Ptr}
    {f : Nat → Nat → Int × Int → World V → Except Fault (World V)}
    (hf : ∀ bs bd p w, (Gone c) w → Post (f bs bd p w) (Gone c)) {w : World V} (hw : (Gone c) w) :
    Post (forEachPair ty src p dst q f w) (Gone c) := by
  unfold forEachPair
  split
  · exact gone_foldlM (fun w p hw => hf _ _ _ _ hw) _ hw
  · exact gone_assert hw

theorem gone_copyConstructAt {bs bd : Nat} {p : Int × Int} {w : World V} (hw : (Gone c) w) :
    Post (copyConstructAt bs bd p w) (Gone c) :=
  post_bind fun _ _ => gone_constructAt hw

theorem gone_moveConstructAt {ty : Types V} {bs bd : Nat} {p : Int × Int} {w : World V} (hw : (Gone c) w) :
    Post (moveConstructAt ty bs bd p w) (Gone c) :=
  post_bind fun _ _ => gone_bind (fun _ h => gone_movedFromAt hw h) fun _ hw => gone_constructAt hw

theorem gone_moveAssignAt {ty : Types V} {bs bd : Nat} {p : Int × Int} {w : World V} (hw : (Gone c) w) :
    Post (moveAssignAt ty bs bd p w) (Gone c) :=
  post_bind fun _ _ => gone_bind (fun _ h => gone_movedFromAt hw h) fun _ hw _ h => gone_assignAt hw h

theorem gone_copyAssignAt {bs bd : Nat} {p : Int × Int} {w : World V} (hw : (Gone c) w) :
    Post (copyAssignAt bs bd p w) (Gone c) :=
  post_bind fun _ _ _ h => gone_assignAt hw h

theorem gone_copyConstruct {ty : Types V} {x y : Nat} {w : World V} (hw : (Gone c) w) :
    Post (copyConstruct ty x y w) (Gone c) :=
  post_bind fun _ _ => post_bind fun _ _ => gone_bind (gone_assert hw) fun _ hw =>
    gone_forEachPair (fun _ _ _ _ hw => gone_copyConstructAt hw) hw

theorem gone_moveConstruct {ty : Types V} {x y : Nat} {w : World V} (hw : (Gone c) w) :
    Post (moveConstruct ty x y w) (Gone c) :=
  post_bind fun _ _ => post_bind fun _ _ => gone_bind (gone_assert hw) fun _ hw =>
    gone_forEachPair (fun _ _ _ _ hw => gone_moveConstructAt hw) hw

theorem gone_deallocate {ty : Types V} {x : Nat} {w : World V} (hw : (Gone c) w) : Post (deallocate ty x w) (Gone c) := by
  unfold deallocate
  refine post_bind fun a _ => ?_
  split
  · refine gone_bind (gone_destroy hw) fun w hw => ?_
    refine post_bind fun r hr => ?_
    exact post_ok ((gone_release hw r hr).setVar _ _)
  · exact post_ok hw

theorem gone_setShape {x : Nat} {s : Shape} {w : World V} (hw : (Gone c) w) : Post (setShapeMember x s w) (Gone c) :=
  post_bind fun _ _ => post_ok (hw.setVar _ _)

theorem gone_swapExceptAllocator {x y : Nat} {w : World V} (hw : (Gone c) w) : Post (swapExceptAllocator x y w) (Gone c) :=
  post_bind fun _ _ => post_bind fun _ _ => post_ok ((hw.setVar _ _).setVar _ _)

theorem gone_swapAllocator {x y : Nat} {w : World V} (hw : (Gone c) w) : Post (swapAllocator x y w) (Gone c) :=
  post_bind fun _ _ => post_bind fun _ _ => post_ok ((hw.setVar _ _).setVar _ _)

theorem gone_rebuild {ty : Types V} {x : Nat} {s : Shape} {f : World V → Except Fault (World V)} {w : World V}
    (hw : (Gone c) w) (hf : ∀ w, (Gone c) w → Post (f w) (Gone c)) :
    Post (deallocate ty x w >>= fun w => setShapeMember x s w >>= fun w => allocate ty x w >>= f) (Gone c) :=
  gone_bind (gone_deallocate hw) fun _ hw => gone_bind (gone_setShape hw) fun _ hw =>
    gone_bind (gone_allocate hw) hf

theorem gone_assignCopy {ty : Types V} {x y : Nat} {w : World V} (hw : (Gone c) w) : Post (assignCopy ty x y w) (Gone c) := by
  unfold assignCopy
  refine post_bind fun a _ => post_bind fun o _ => ?_
  split
  · split
    · exact gone_assert hw
    · exact gone_bind (gone_setShape hw) fun _ hw => gone_assert hw
  · split
    · exact gone_bind (gone_destroy hw) fun _ hw => gone_copyConstruct hw
    · exact gone_rebuild hw fun _ hw => gone_copyConstruct hw

theorem gone_assignMove {ty : Types V} {x y : Nat} {w : World V} (hw : (Gone c) w) : Post (assignMove ty x y w) (Gone c) := by
  unfold assignMove
  refine post_bind fun a _ => post_bind fun o _ => ?_
  split
  · split
    · exact gone_assert hw
    · exact gone_bind (gone_setShape hw) fun _ hw => gone_assert hw
  · split
    · exact gone_bind (gone_destroy hw) fun _ hw => gone_moveConstruct hw
    · exact gone_rebuild hw fun _ hw => gone_moveConstruct hw

theorem gone_assignFill {ty : Types V} {x : Nat} {s : Shape} {v : V} {w : World V} (hw : (Gone c) w) :
    Post (assignFill ty x s v w) (Gone c) := by
  unfold assignFill
  refine post_bind fun a _ => ?_
  dsimp only
  split
  · exact gone_bind (gone_destroy hw) fun _ hw => gone_construct hw
  · exact gone_rebuild hw fun _ hw => gone_construct hw

theorem gone_newShapeAlloc {ty : Types V} {s : Shape} {al : Nat} {w : World V} (hw : (Gone c) w) :
    Post (newShapeAlloc ty s al w) (Gone c) :=
  gone_bind (gone_allocate (hw.push _)) fun _ hw => gone_construct hw

theorem gone_newMove {ty : Types V} {y : Nat} {w : World V} (hw : (Gone c) w) : Post (newMove ty y w) (Gone c) := by
  unfold newMove
  refine post_bind fun o _ => ?_
  dsimp only
  split
  · exact gone_swapExceptAllocator (hw.push _)
  · exact gone_bind (gone_setShape (hw.push _)) fun _ hw => gone_bind (gone_allocate hw) fun _ hw =>
      gone_moveConstruct hw

theorem gone_newMoveAlloc {ty : Types V} {y al : Nat} {w : World V} (hw : (Gone c) w) :
    Post (newMoveAlloc ty y al w) (Gone c) := by
  unfold newMoveAlloc
  refine post_bind fun o _ => ?_
  dsimp only
  split
  · exact gone_swapExceptAllocator (hw.push _)
  · exact gone_bind (gone_setShape (hw.push _)) fun _ hw => gone_bind (gone_allocate hw) fun _ hw =>
      gone_moveConstruct hw

theorem gone_delete {ty : Types V} {x : Nat} {w : World V} (hw : (Gone c) w) : Post (delete ty x w) (Gone c) :=
  gone_bind (gone_deallocate hw) fun _ hw => post_ok (hw.setVar _ _)

theorem gone_copyAssignOp {ty : Types V} {x y : Nat} {w : World V} (hw : (Gone c) w) :
    Post (copyAssignOp ty x y w) (Gone c) := by
  unfold copyAssignOp
  refine post_bind fun a _ => post_bind fun o _ => ?_
  split
  · split
    · exact gone_assert hw
    · exact gone_bind (gone_setShape hw) fun _ hw => gone_assert hw
  · split
    · split
      · exact gone_bind (gone_deallocate hw) fun w hw => post_bind fun a _ => gone_assignCopy (hw.setVar _ _)
      · exact gone_bind (post_ok hw) fun w hw => post_bind fun a _ => gone_assignCopy (hw.setVar _ _)
    · exact gone_assignCopy hw

theorem gone_moveAssignOp {ty : Types V} {x y : Nat} {w : World V} (hw : (Gone c) w) :
    Post (moveAssignOp ty x y w) (Gone c) := by
  unfold moveAssignOp
  refine post_bind fun a _ => post_bind fun o _ => ?_
  split
  · split
    · exact gone_assert hw
    · exact post_bind fun _ _ => gone_assert ((hw.setVar _ _).setVar _ _)
  · split
    · exact gone_bind (gone_swapAllocator hw) fun _ hw => gone_swapExceptAllocator hw
    · split
      · exact gone_swapExceptAllocator hw
      · exact gone_assignMove hw

theorem gone_reshape {ty : Types V} {x : Nat} {s : Shape} {w : World V} (hw : (Gone c) w) :
    Post (reshape ty x s w) (Gone c) := by
  unfold reshape
  refine post_bind fun a _ => ?_
  dsimp only
  split
  · exact post_ok hw
  · exact gone_bind (gone_newShapeAlloc hw) fun _ hw => post_bind fun _ _ => post_bind fun _ _ =>
      gone_bind (gone_forEachPair (fun _ _ _ _ hw => gone_moveAssignAt hw) hw) fun _ hw =>
      gone_bind (gone_moveAssignOp hw) fun _ hw => gone_delete hw

theorem gone_swap {ty : Types V} {x y : Nat} {w : World V} (hw : (Gone c) w) : Post (swap ty x y w) (Gone c) := by
  unfold swap
  split
  · exact gone_bind (gone_swapAllocator hw) fun _ hw => gone_swapExceptAllocator hw
  · exact gone_bind (gone_newMove hw) fun _ hw => gone_bind (gone_moveAssignOp hw) fun _ hw =>
      gone_bind (gone_moveAssignOp hw) fun _ hw => gone_delete hw

theorem gone_assignElements (keep : Bool) {ty : Types V} {src dst : Shape} {p q : Ptr} {w : World V} (hw : (Gone c) w) :
    Post (assignElements keep ty src p dst q w) (Gone c) := by
  unfold assignElements
  split
  · exact post_ok hw
  · refine gone_bind (gone_assert hw) fun _ hw => gone_forEachPair (fun _ _ _ _ hw => ?_) hw
    cases keep
    · exact gone_moveAssignAt hw
    · exact gone_copyAssignAt hw

theorem gone_makeFrom (keep : Bool) {ty : Types V} {y : Nat} {src : Shape} {off : Int} {s : Shape} {al : Nat}
    {w : World V} (hw : (Gone c) w) : Post (makeFrom keep ty y src off s al w) (Gone c) :=
  post_bind fun _ _ => gone_bind (gone_newShapeAlloc hw) fun _ hw => post_bind fun _ _ =>
    gone_assignElements keep hw

theorem gone_exec {ty : Types V} {cmd : Cmd V} {w : World V} (hw : (Gone c) w) : Post (exec ty cmd w) (Gone c) := by
  cases cmd with
  | new => exact gone_newShapeAlloc hw
  | newAlloc al => exact gone_newShapeAlloc hw
  | newShape s => exact gone_newShapeAlloc hw
  | newShapeAlloc s al => exact gone_newShapeAlloc hw
  | newFill s v => exact gone_bind (gone_newShapeAlloc hw) fun _ hw => gone_assignFill hw
  | newFillAlloc s v al => exact gone_bind (gone_newShapeAlloc hw) fun _ hw => gone_assignFill hw
  | newCopy y => exact post_bind fun _ _ => gone_assignCopy (hw.push _)
  | newCopyAlloc y al => exact gone_bind (gone_newShapeAlloc hw) fun _ hw => gone_assignCopy hw
  | newMove y => exact gone_newMove hw
  | newMoveAlloc y al => exact gone_newMoveAlloc hw
  | delete x => exact gone_delete hw
  | copyAssign x y => exact gone_copyAssignOp hw
  | moveAssign x y => exact gone_moveAssignOp hw
  | assignCopy x y => exact gone_assignCopy hw
  | assignMove x y => exact gone_assignMove hw
  | assignFill x s v => exact gone_assignFill hw
  | clear x => exact gone_rebuild hw fun _ hw => gone_construct hw
  | reshape x s => exact gone_reshape hw
  | swap x y => exact gone_swap hw
  | write x i v =>
    refine post_bind fun a _ => ?_
    split
    · exact post_error
    · exact fun _ h => gone_assignAt hw h
  | makeCopy y s al => exact post_bind fun _ _ => gone_makeFrom true hw
  | makeCopyRef y src off s al => exact gone_makeFrom true hw
  | makeMove y s al => exact post_bind fun _ _ => gone_makeFrom false hw
  | makeMoveRef y src off s al => exact gone_makeFrom false hw
  | makeMoveRvalue y s al =>
    refine post_bind fun o _ => ?_
    split
    · exact post_bind fun _ _ => gone_assignCopy (hw.push _)
    · exact post_bind fun _ _ => gone_makeFrom false hw
  | copyRef y src soff x dst doff => exact post_bind fun _ _ => post_bind fun _ _ => gone_assignElements true hw
  | moveRef y src soff x dst doff => exact post_bind fun _ _ => post_bind fun _ _ => gone_assignElements false hw
  | forEach x s off f =>
    refine post_bind fun a _ => ?_
    split
    · exact gone_assert hw
    · exact gone_foldlM (fun w p hw => post_bind fun _ _ _ h => gone_assignAt hw h) _ hw
  | transform x s off f =>
    refine post_bind fun a _ => ?_
    split
    · exact post_error
    · refine gone_foldlM (fun w p hw => ?_) _ hw
      split
      · exact post_error
      · exact fun _ h => gone_assignAt hw h

end

/-! ### Functions that do not change objects -/

theorem post_mono {α : Type} {m : Except Fault α} {P Q : α → Prop} (h : Post m P) (hpq : ∀ a, P a → Q a) : Post m Q :=
  fun r hr => hpq r (h r hr)

theorem post_and {α : Type} {m : Except Fault α} {P Q : α → Prop} (h : Post m P) (h' : Post m Q) : Post m fun a => P a ∧ Q a :=
  fun r hr => ⟨h r hr, h' r hr⟩

theorem vars_foldlM {α : Type} {f : World V → α → Except Fault (World V)} (hf : ∀ w p, Post (f w p) fun w' => w'.vars = w.vars)
    (l : List α) (w : World V) : Post (l.foldlM f w) fun w' => w'.vars = w.vars := by
  induction l generalizing w with
  | nil => exact post_ok rfl
  | cons a l ih =>
    rw [List.foldlM_cons]
    exact post_bind fun w1 h1 => post_mono (ih w1) fun w2 h2 => h2.trans (hf w a w1 h1)

theorem vars_assert {ty : Types V} {b : Bool} {w : World V} : Post (assert ty b w) fun w' => w'.vars = w.vars := by
  intro r hr; obtain ⟨_, rfl⟩ := ok_of_assert hr; rfl

theorem vars_construct {ty : Types V} {x : Nat} {k : Call} {v : V} {w : World V} :
    Post (construct ty x k v w) fun w' => w'.vars = w.vars := by
  unfold construct
  refine post_bind fun a _ => post_bind fun w1 h1 => ?_
  obtain ⟨_, rfl⟩ := ok_of_assert h1
  split
  · exact vars_assert
  · exact vars_foldlM (fun w p _ h => (logged_constructAt h).vars) _ _

theorem vars_destroy {ty : Types V} {x : Nat} {w : World V} : Post (destroy ty x w) fun w' => w'.vars = w.vars := by
  unfold destroy
  refine post_bind fun a _ => post_bind fun w1 h1 => ?_
  obtain ⟨_, rfl⟩ := ok_of_assert h1
  split
  · exact vars_assert
  · exact vars_foldlM (fun w p _ h => (logged_destroyAt h).vars) _ _

theorem vars_forEachPair {ty : Types V} {src dst : Shape} {p q : Ptr}
    {f : Nat → Nat → Int × Int → World V → Except Fault (World V)}
    (hf : ∀ bs bd p w, Post (f bs bd p w) fun w' => w'.vars = w.vars) {w : World V} :
    Post (forEachPair ty src p dst q f w) fun w' => w'.vars = w.vars := by
  unfold forEachPair
  split
  · exact vars_foldlM (fun w p => hf _ _ _ _) _ _
  · exact vars_assert

theorem vars_transfer (keep : Bool) {ty : Types V} {x y : Nat} {w : World V} :
    Post (transfer keep ty x y w) fun w' => w'.vars = w.vars := by
  unfold transfer
  cases keep
  · simp only [Bool.false_eq_true, if_false]
    unfold moveConstruct
    refine post_bind fun a _ => post_bind fun o _ => post_bind fun w1 h1 => ?_
    obtain ⟨_, rfl⟩ := ok_of_assert h1
    exact vars_forEachPair (fun _ _ _ _ _ h => (logged_moveConstructAt h).vars)
  · simp only [if_true]
    unfold copyConstruct
    refine post_bind fun a _ => post_bind fun o _ => post_bind fun w1 h1 => ?_
    obtain ⟨_, rfl⟩ := ok_of_assert h1
    exact vars_forEachPair (fun _ _ _ _ _ h => (logged_copyConstructAt h).vars)

theorem gone_transfer {c : Nat} (keep : Bool) {ty : Types V} {x y : Nat} {w : World V} (hw : Gone c w) :
    Post (transfer keep ty x y w) (Gone c) := by
  unfold transfer
  cases keep
  · simp only [Bool.false_eq_true, if_false]; exact gone_moveConstruct hw
  · simp only [if_true]; exact gone_copyConstruct hw

theorem vars_assignElements (keep : Bool) {ty : Types V} {src dst : Shape} {p q : Ptr} {w : World V} :
    Post (assignElements keep ty src p dst q w) fun w' => w'.vars = w.vars := by
  unfold assignElements
  split
  · exact post_ok rfl
  · refine post_bind fun w1 h1 => ?_
    obtain ⟨_, rfl⟩ := ok_of_assert h1
    refine vars_forEachPair fun _ _ _ _ _ h => ?_
    cases keep
    · exact (logged_moveAssignAt h).vars
    · exact (logged_copyAssignAt h).vars

/-! ### Memory of one array -/

/-- Array `x` has the memory of `a`. -/
def Has (w : World V) (x : Nat) (a : Arr) : Prop :=
  ∃ a', w.vars x = some a' ∧ a'.base = a.base ∧ a'.buffer = a.buffer ∧ a'.shape = a.shape

theorem has_self {w : World V} {x : Nat} {a : Arr} (ha : w.vars x = some a) : Has w x a := ⟨a, ha, rfl, rfl, rfl⟩

theorem Has.of_vars {w w' : World V} {x : Nat} {a : Arr} (h : Has w x a) (hv : w'.vars x = w.vars x) : Has w' x a := by
  unfold Has; rw [hv]; exact h

theorem release_gone {ty : Types V} {al : Allocator} {b n : Nat} {w : World V} (hB : Bal w) :
    Post (release ty al (some (b, 0)) n w) fun r => Gone b r.1 := by
  unfold release
  dsimp only
  split
  · exact post_error
  · rename_i blk hb
    have hlt := hB.bound b (by rw [hb]; simp)
    have key : ∀ w2, w.free b blk = .ok w2 → Gone b w2 := by
      intro w2 h2
      unfold World.free at h2
      split at h2
      · simp only [Except.ok.injEq] at h2
        subst h2
        exact ⟨by simp [setBlock_heap], hlt⟩
      · simp at h2
    split
    · refine post_bind fun w1 h1 => ?_
      obtain ⟨_, rfl⟩ := ok_of_assert h1
      exact post_bind fun w2 h2 => post_ok (key w2 h2)
    · split
      · exact post_error
      · exact post_bind fun w2 h2 => post_ok (key w2 h2)

theorem deallocate_gone {ty : Types V} {x : Nat} {w : World V} {a : Arr} {b : Nat} (hB : Bal w) (ha : w.vars x = some a)
    (hb : a.base ≠ none) (hbuf : a.buffer = some (b, 0)) : Post (deallocate ty x w) (Gone b) := by
  unfold deallocate
  rw [get_ok ha, bind_ok, if_pos (by simpa [Option.isSome_iff_ne_none] using hb)]
  refine post_bind fun w1 h1 => post_bind fun r hr => post_ok (Gone.setVar ?_ _ _)
  rw [hbuf] at hr
  exact release_gone (post_destroy hB w1 h1) r hr

theorem vars_setVar_other {w : World V} {x z : Nat} (h : z ≠ x) (a : Option Arr) : (w.setVar x a).vars z = w.vars z := by
  rw [setVar_vars, if_neg h]

/-- The objects other than those in `T` are not changed. -/
def Others (T : Nat → Prop) (w w' : World V) : Prop := ∀ z, ¬ T z → w'.vars z = w.vars z

theorem others_deallocate {ty : Types V} {x : Nat} {w : World V} : Post (deallocate ty x w) (Others (· = x) w) := by
  unfold deallocate
  refine post_bind fun a _ => ?_
  split
  · refine post_bind fun w1 h1 => post_bind fun r hr => post_ok fun z hz => ?_
    rw [vars_setVar_other hz, (logged_release hr).1.vars, vars_destroy w1 h1]
  · exact post_ok fun z _ => rfl

theorem others_setShape {x : Nat} {s : Shape} {w : World V} : Post (setShapeMember x s w) (Others (· = x) w) :=
  post_bind fun _ _ => post_ok fun _ hz => vars_setVar_other hz _

theorem others_allocate {ty : Types V} {x : Nat} {w : World V} : Post (allocate ty x w) (Others (· = x) w) := by
  unfold allocate
  refine post_bind fun a _ => post_bind fun w1 h1 => ?_
  obtain ⟨_, rfl⟩ := ok_of_assert h1
  dsimp only
  split
  · exact post_ok fun z hz => vars_setVar_other hz _
  · refine post_bind fun w2 h2 => ?_
    obtain ⟨_, rfl⟩ := ok_of_check h2
    exact post_ok fun z hz => vars_setVar_other hz _

theorem others_bind {T : Nat → Prop} {w : World V} {m : Except Fault (World V)} {f : World V → Except Fault (World V)}
    (h1 : Post m (Others T w)) (h2 : ∀ w1, m = .ok w1 → Post (f w1) (Others T w1)) : Post (m >>= f) (Others T w) :=
  post_bind fun w1 e1 => post_mono (h2 w1 e1) fun _ h z hz => (h z hz).trans (h1 w1 e1 z hz)

theorem others_rebuild {ty : Types V} {x : Nat} {s : Shape} {f : World V → Except Fault (World V)} {w : World V}
    (hf : ∀ w, Post (f w) fun w' => w'.vars = w.vars) :
    Post (deallocate ty x w >>= fun w => setShapeMember x s w >>= fun w => allocate ty x w >>= f) (Others (· = x) w) :=
  others_bind others_deallocate fun _ _ => others_bind others_setShape fun _ _ => others_bind others_allocate fun _ _ =>
    post_mono (hf _) fun _ h z _ => by rw [h]

theorem others_assign (keep : Bool) {ty : Types V} {x y : Nat} {w : World V} {a o : Arr} (ha : w.vars x = some a)
    (ho : w.vars y = some o) : Post (assignArr keep ty x y w) (Others (· = x) w) := by
  rw [assignArr_eq keep ha ho]
  split
  · split
    · exact post_mono vars_assert fun _ h z _ => by rw [h]
    · exact others_bind others_setShape fun _ _ => post_mono vars_assert fun _ h z _ => by rw [h]
  · split
    · exact post_bind fun w1 h1 => post_mono (vars_transfer keep) fun _ h z _ => by rw [h, vars_destroy w1 h1]
    · exact others_rebuild fun w => vars_transfer keep

theorem others_swapExceptAllocator {x y : Nat} {w : World V} :
    Post (swapExceptAllocator x y w) (Others (fun z => z = x ∨ z = y) w) :=
  post_bind fun _ _ => post_bind fun _ _ => post_ok fun z hz => by
    rw [not_or] at hz; rw [vars_setVar_other hz.2, vars_setVar_other hz.1]

theorem others_swapAllocator {x y : Nat} {w : World V} :
    Post (swapAllocator x y w) (Others (fun z => z = x ∨ z = y) w) :=
  post_bind fun _ _ => post_bind fun _ _ => post_ok fun z hz => by
    rw [not_or] at hz; rw [vars_setVar_other hz.2, vars_setVar_other hz.1]

theorem others_moveAssignOp {ty : Types V} {x y : Nat} {w : World V} :
    Post (moveAssignOp ty x y w) (Others (fun z => z = x ∨ z = y) w) := by
  unfold moveAssignOp
  refine post_bind fun a ha => post_bind fun o ho => ?_
  split
  · split
    · exact post_mono vars_assert fun _ h z _ => by rw [h]
    · exact post_bind fun _ _ => post_mono vars_assert fun _ h z hz => by
        rw [not_or] at hz
        rw [h, vars_setVar_other hz.2, vars_setVar_other hz.1]
  · split
    · exact others_bind others_swapAllocator fun _ _ => others_swapExceptAllocator
    · split
      · exact others_swapExceptAllocator
      · exact post_mono (others_assign false (get_some ha) (get_some ho)) fun _ h z hz => h z fun e => hz (Or.inl e)

theorem others_delete {ty : Types V} {x : Nat} {w : World V} : Post (delete ty x w) (Others (· = x) w) :=
  others_bind others_deallocate fun _ _ => post_ok fun _ hz => vars_setVar_other hz _

theorem others_newMove {ty : Types V} {y : Nat} {w : World V} :
    Post (newMove ty y w) (Others (fun z => z = w.nextVar ∨ z = y) w) := by
  unfold newMove
  refine post_bind fun o _ => ?_
  dsimp only
  have hp : ∀ a, Others (fun z => z = w.nextVar ∨ z = y) w (w.push a) := by
    intro a z hz
    rw [not_or] at hz
    rw [push_vars, if_neg hz.1]
  split
  · exact post_mono others_swapExceptAllocator fun _ h z hz => (h z hz).trans (hp _ z hz)
  · refine post_mono (others_bind others_setShape fun _ _ => others_bind others_allocate fun _ _ =>
      (post_mono (vars_transfer false) fun _ h z _ => by rw [h])) fun _ h z hz => ?_
    rw [not_or] at hz
    exact (h z hz.1).trans (hp _ z (by simp [hz.1, hz.2]))

/-! ### Assignments -/

theorem lost_assign (keep : Bool) {ty : Types V} {x y : Nat} {w : World V} {a o : Arr} {b : Nat} (hB : Bal w)
    (ha : w.vars x = some a) (ho : w.vars y = some o) (hb : a.base ≠ none) (hbuf : a.buffer = some (b, 0))
    (hne : a.base ≠ o.base) (hs : a.shape ≠ o.shape) : Post (assignArr keep ty x y w) (Gone b) := by
  rw [assignArr_eq keep ha ho, if_neg hne, if_neg (by simp [hs])]
  exact post_bind fun w1 h1 => gone_bind (gone_setShape (deallocate_gone hB ha hb hbuf w1 h1)) fun _ h => gone_bind (gone_allocate h)
    fun _ h => gone_transfer keep h

theorem kept_assign (keep : Bool) {ty : Types V} {x y : Nat} {w : World V} {a o : Arr}
    (ha : w.vars x = some a) (ho : w.vars y = some o) (hb : a.base ≠ none)
    (hs : a.base = o.base ∨ a.shape = o.shape) : Post (assignArr keep ty x y w) fun w' => w'.vars = w.vars := by
  rw [assignArr_eq keep ha ho]
  have hb' : a.base.isSome = true := by simpa [Option.isSome_iff_ne_none] using hb
  by_cases h : a.base = o.base
  · rw [if_pos h, if_pos hb']
    exact vars_assert
  · rw [if_neg h, if_pos (by simp [hb', hs.resolve_left h])]
    exact post_bind fun w1 h1 => post_mono (vars_transfer keep) fun _ h => by rw [h, vars_destroy w1 h1]

/-- `operator=(array&&)` when memory changes hands. -/
theorem taken_moveAssign {ty : Types V} {x y : Nat} {w : World V} {a o : Arr} (hxy : x ≠ y) (ha : w.vars x = some a)
    (ho : w.vars y = some o) (hself : a.alloc.self ≠ o.alloc.self) (hb : a.base ≠ o.base) (ht : TakesAssign ty a o) :
    Post (moveAssignOp ty x y w) fun w' => ∃ al1 al2, w'.vars x = some { o with alloc := al1 } ∧
      w'.vars y = some { a with alloc := al2 } ∧ (ty.propagateMove = false → al1 = a.alloc ∧ al2 = o.alloc) ∧
      al1.self = a.alloc.self ∧ al2.self = o.alloc.self := by
  unfold moveAssignOp
  rw [get_ok ha, bind_ok, get_ok ho, bind_ok, if_neg hb]
  cases hp : ty.propagateMove with
  | true =>
    rw [if_pos rfl]
    obtain ⟨w', e, hv, -⟩ := swapBoth_ok hxy ha ho
    intro r hr
    rw [hr] at e
    simp only [Except.ok.injEq] at e
    subst e
    refine ⟨⟨o.alloc.arena, a.alloc.self, a.alloc.allocated⟩, ⟨a.alloc.arena, o.alloc.self, o.alloc.allocated⟩, ?_, ?_, by simp, rfl, rfl⟩
    · rw [hv, if_neg hxy, if_pos rfl]
    · rw [hv, if_pos rfl]
  | false =>
    rw [if_neg (by simp), if_pos (by
      rw [Allocator.eq_iff hself]
      rcases ht with h | h
      · rw [hp] at h; simp at h
      · exact h), swapExceptAllocator_ok ha ho]
    refine post_ok ⟨a.alloc, o.alloc, ?_, ?_, fun _ => ⟨rfl, rfl⟩, rfl, rfl⟩
    · rw [vars_setVar_other hxy, setVar_self]
    · rw [setVar_self]

/-- `operator=(array&&)` when elements are moved one by one. -/
theorem untaken_moveAssign {ty : Types V} {x y : Nat} {w : World V} {a o : Arr} (ha : w.vars x = some a)
    (ho : w.vars y = some o) (hself : a.alloc.self ≠ o.alloc.self) (hb : a.base ≠ o.base) (ht : ¬ TakesAssign ty a o) :
    moveAssignOp ty x y w = assignArr false ty x y w := by
  unfold moveAssignOp
  rw [get_ok ha, bind_ok, get_ok ho, bind_ok, if_neg hb]
  unfold TakesAssign at ht
  rw [not_or] at ht
  rw [if_neg ht.1, if_neg (by rw [Allocator.eq_iff hself]; exact ht.2)]
  rfl

theorem same_moveAssign {ty : Types V} {x y : Nat} {w : World V} {a o : Arr} (ha : w.vars x = some a)
    (ho : w.vars y = some o) (hb : a.base = o.base) (hn : a.base ≠ none) :
    Post (moveAssignOp ty x y w) fun w' => w'.vars = w.vars := by
  unfold moveAssignOp
  rw [get_ok ha, bind_ok, get_ok ho, bind_ok, if_pos hb, if_pos (by simpa [Option.isSome_iff_ne_none] using hn)]
  exact vars_assert

theorem delete_gone {ty : Types V} {x : Nat} {w : World V} {a : Arr} {b : Nat} (hB : Bal w) (ha : w.vars x = some a)
    (hb : a.base ≠ none) (hbuf : a.buffer = some (b, 0)) : Post (delete ty x w) (Gone b) :=
  post_bind fun w1 h1 => post_ok ((deallocate_gone hB ha hb hbuf w1 h1).setVar _ _)

end Nda
