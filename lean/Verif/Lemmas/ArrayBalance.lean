import Verif.Lemmas.ArrayCallsExec
import Mathlib.Algebra.BigOperators.Fin
/-
Constructor and destructor calls: their difference is the number of live elements in memory.
-/
namespace Nda
open Spec

variable {V : Type}

/-- The live elements of an allocation. -/
def Block.count (blk : Block V) : Nat := ((List.range blk.size).map fun k : Nat => blk.live k).sum

/-- The live elements of an allocation that may have been given back. -/
def blockCount : Option (Block V) → Nat
  | none => 0
  | some blk => blk.count

/-- The live elements of all allocations. -/
def World.count (w : World V) : Nat := ((List.range w.nextBlock).map fun b => blockCount (w.heap b)).sum

/-- Constructor calls are destructor calls and live elements. -/
structure Bal (w : World V) : Prop where
  bound : ∀ b, w.heap b ≠ none → b < w.nextBlock
  eq : w.calls.countP Call.begins = w.calls.count .destroy + w.count

theorem sum_range_congr {n : Nat} {f g : Nat → Nat} (h : ∀ k, k < n → f k = g k) :
    ((List.range n).map f).sum = ((List.range n).map g).sum := by
  congr 1
  exact List.map_congr_left fun k hk => h k (List.mem_range.1 hk)

/-- Changing one summand. -/
theorem sum_range_change {n : Nat} {f g : Nat → Nat} {b : Nat} (hb : b < n) (h : ∀ k, k ≠ b → f k = g k) :
    ((List.range n).map f).sum + g b = ((List.range n).map g).sum + f b := by
  induction n with
  | zero => omega
  | succ n ih =>
    simp only [List.range_succ, List.map_append, List.sum_append, List.map_cons, List.map_nil, List.sum_cons,
      List.sum_nil]
    by_cases hbn : b = n
    · subst hbn
      rw [sum_range_congr fun k hk => h k (by omega)]; omega
    · have := ih (by omega)
      have := h n (Ne.symm hbn)
      omega

theorem Bal.of_same {w w' : World V} (h : Bal w) (h1 : w'.heap = w.heap) (h2 : w'.nextBlock = w.nextBlock)
    (h3 : w'.calls = w.calls) : Bal w' := by
  refine ⟨fun b hb => ?_, ?_⟩
  · rw [h1] at hb; rw [h2]; exact h.bound b hb
  · unfold World.count; rw [h1, h2, h3]; exact h.eq

theorem Bal.setVar {w : World V} (h : Bal w) (x : Nat) (a : Option Arr) : Bal (w.setVar x a) :=
  h.of_same rfl rfl rfl

theorem Bal.push {w : World V} (h : Bal w) (a : Arr) : Bal (w.push a) := h.of_same rfl rfl rfl

/-- One block changes. -/
theorem Bal.setBlock {w w' : World V} (h : Bal w) {b : Nat} {blk : Block V} {x : Option (Block V)} {l : List Call}
    (hb : w.heap b = some blk)
    (hh : ∀ c, w'.heap c = if c = b then x else w.heap c) (hn : w'.nextBlock = w.nextBlock)
    (hc : w'.calls = w.calls ++ l)
    (he : l.countP Call.begins + blk.count = l.count .destroy + blockCount x) :
    Bal w' := by
  have hlt := h.bound b (by rw [hb]; simp)
  refine ⟨fun c hc => ?_, ?_⟩
  · rw [hh] at hc
    rw [hn]
    split at hc
    · subst_vars; exact hlt
    · exact h.bound c hc
  · rw [hc, List.countP_append, List.count_append]
    have e := h.eq
    have := sum_range_change (f := fun b => blockCount (w'.heap b))
      (g := fun b => blockCount (w.heap b)) hlt
      (fun k hk => by simp only [hh, if_neg hk])
    simp only [hh, hb, if_true] at this
    change _ + blk.count = _ at this
    unfold World.count at e ⊢
    rw [hn]
    simp only [hh]
    omega

theorem block_inv {w : World V} {b : Nat} {o : Int} {blk : Block V} (h : w.block b o = .ok blk) :
    w.heap b = some blk ∧ 0 ≤ o ∧ o < blk.size := by
  unfold World.block at h
  split at h
  · simp at h
  · split at h
    · simp only [Except.ok.injEq] at h; subst h; rename_i h1 h2; exact ⟨h1, h2⟩
    · simp at h

theorem count_change {blk : Block V} {o : Int} (h0 : 0 ≤ o) (hs : o < blk.size) (n : Nat) (val : Int → V) :
    ({ blk with live := fun p => if p = o then n else blk.live p, val := val } : Block V).count + blk.live o =
      blk.count + n := by
  obtain ⟨k, rfl⟩ := Int.eq_ofNat_of_zero_le h0
  have := sum_range_change (n := blk.size) (b := k) (f := fun j : Nat => if (j : Int) = (k : Int) then n else blk.live j)
    (g := fun j : Nat => blk.live j) (by omega) (fun j hj => by rw [if_neg (by omega)])
  simp only [if_true] at this
  exact this

theorem bal_constructAt {k : Call} (hk : k.begins = true) {b : Nat} {o : Int} {v : V} {w w' : World V} (hw : Bal w)
    (h : constructAt k b o v w = .ok w') : Bal w' := by
  replace h := ok_of_bind h
  obtain ⟨blk, h1, h⟩ := h
  obtain ⟨hb, h0, hs⟩ := block_inv h1
  simp only [Except.ok.injEq] at h
  subst h
  refine hw.setBlock hb (fun c => rfl) rfl rfl ?_
  have := count_change h0 hs (blk.live o + 1) (fun p => if p = o then v else blk.val p)
  change _ = _ + Block.count _
  cases k <;> simp_all [Call.begins, List.countP_cons] <;> omega

theorem bal_destroyAt {b : Nat} {o : Int} {w w' : World V} (hw : Bal w)
    (h : destroyAt b o w = .ok w') : Bal w' := by
  replace h := ok_of_bind h
  obtain ⟨blk, h1, h⟩ := h
  obtain ⟨hb, h0, hs⟩ := block_inv h1
  split at h
  · simp at h
  simp only [Except.ok.injEq] at h
  subst h
  refine hw.setBlock hb (fun c => rfl) rfl rfl ?_
  have := count_change h0 hs (blk.live o - 1) blk.val
  change _ = _ + Block.count _
  simp only [Call.begins, List.countP_singleton, List.count_singleton_self]
  simp
  omega

theorem bal_assignAt {k : Call} (hk : k = .copyAssign ∨ k = .moveAssign) {b : Nat} {o : Int} {v : V} {w w' : World V}
    (hw : Bal w) (h : assignAt k b o v w = .ok w') : Bal w' := by
  replace h := ok_of_bind h
  obtain ⟨blk, h1, h⟩ := h
  obtain ⟨hb, h0, hs⟩ := block_inv h1
  split at h
  · simp at h
  simp only [Except.ok.injEq] at h
  subst h
  refine hw.setBlock hb (fun c => rfl) rfl rfl ?_
  rcases hk with rfl | rfl <;> simp [Call.begins] <;> rfl

theorem bal_movedFromAt {ty : Types V} {b : Nat} {o : Int} {w w' : World V} (hw : Bal w)
    (h : movedFromAt ty b o w = .ok w') : Bal w' := by
  replace h := ok_of_bind h
  obtain ⟨blk, h1, h⟩ := h
  obtain ⟨hb, h0, hs⟩ := block_inv h1
  simp only [Except.ok.injEq] at h
  subst h
  exact hw.setBlock hb (l := []) (fun c => rfl) rfl (by simp [World.setBlock]) (by simp; rfl)

theorem bal_free {w w' : World V} {b : Nat} {blk : Block V} (hw : Bal w) (hb : w.heap b = some blk)
    (h : w.free b blk = .ok w') : Bal w' := by
  unfold World.free at h
  split at h
  · rename_i h0
    simp only [Except.ok.injEq] at h
    subst h
    refine hw.setBlock hb (l := []) (fun c => rfl) rfl (by simp [World.setBlock]) ?_
    simp only [List.countP_nil, List.count_nil, Nat.zero_add]
    show blk.count = 0
    unfold Block.count
    refine List.sum_eq_zero fun n hn => ?_
    obtain ⟨k, hk, rfl⟩ := List.mem_map.1 hn
    simpa using List.all_eq_true.1 h0 k hk
  · simp at h

/-! ### Functions -/

/-- `P` holds of the result, if there is one. -/
def Post {α : Type} (m : Except Fault α) (P : α → Prop) : Prop := ∀ r, m = .ok r → P r

theorem post_ok {α : Type} {a : α} {P : α → Prop} (h : P a) : Post (.ok a) P := by
  intro r hr; simp only [Except.ok.injEq] at hr; exact hr ▸ h

theorem post_error {α : Type} {f : Fault} {P : α → Prop} : Post (.error f) P := by intro r hr; simp at hr

theorem post_bind_bal {β : Type} {m : Except Fault (World V)} {f : World V → Except Fault β} {P : β → Prop}
    (h1 : Post m Bal) (h2 : ∀ w, Bal w → Post (f w) P) : Post (m >>= f) P := by
  intro r hr
  obtain ⟨w, hw, h⟩ := ok_of_bind hr
  exact h2 w (h1 w hw) r h

theorem post_bind {α β : Type} {m : Except Fault α} {f : α → Except Fault β} {P : β → Prop}
    (h2 : ∀ a, m = .ok a → Post (f a) P) : Post (m >>= f) P := by
  intro r hr
  obtain ⟨w, hw, h⟩ := ok_of_bind hr
  exact h2 w hw r h

theorem post_assert {ty : Types V} {b : Bool} {w : World V} (hw : Bal w) : Post (assert ty b w) Bal := by
  intro r hr; obtain ⟨_, rfl⟩ := ok_of_assert hr; exact hw

theorem post_check {f : Fault} {b : Bool} {w : World V} (hw : Bal w) : Post (check f b w) Bal := by
  intro r hr; obtain ⟨_, rfl⟩ := ok_of_check hr; exact hw

theorem post_foldlM {α : Type} {f : World V → α → Except Fault (World V)} (hf : ∀ w p, Bal w → Post (f w p) Bal)
    (l : List α) {w : World V} (hw : Bal w) : Post (l.foldlM f w) Bal := by
  induction l generalizing w with
  | nil => exact post_ok hw
  | cons a l ih =>
    rw [List.foldlM_cons]
    exact post_bind_bal (hf w a hw) fun w hw => ih hw

theorem post_constructAt {k : Call} (hk : k.begins = true) {b : Nat} {o : Int} {v : V} {w : World V} (hw : Bal w) :
    Post (constructAt k b o v w) Bal := fun _ h => bal_constructAt hk hw h

theorem post_release {ty : Types V} {al : Allocator} {p : Ptr} {n : Nat} {w : World V} (hw : Bal w) :
    Post (release ty al p n w) fun r => Bal r.1 := by
  unfold release
  split
  · exact post_error
  · split
    · exact post_error
    · rename_i hb
      split
      · refine post_bind fun w1 h1 => ?_
        obtain ⟨_, rfl⟩ := ok_of_assert h1
        exact post_bind fun w2 h2 => post_ok (bal_free hw hb h2)
      · split
        · exact post_error
        · exact post_bind fun w2 h2 => post_ok (bal_free hw hb h2)

theorem post_allocate {ty : Types V} {x : Nat} {w : World V} (hw : Bal w) : Post (allocate ty x w) Bal := by
  unfold allocate
  refine post_bind fun a _ => ?_
  refine post_bind_bal (post_assert hw) fun w hw => ?_
  dsimp only
  split
  · refine post_ok (Bal.setVar ?_ _ _)
    refine ⟨fun b hb => ?_, ?_⟩
    · simp only [World.setBlock] at hb ⊢
      split at hb
      · omega
      · have := hw.bound b hb; omega
    · have e := hw.eq
      unfold World.count at e ⊢
      simp only [World.setBlock, List.range_succ, List.map_append, List.sum_append, List.map_cons, List.map_nil,
        List.sum_cons, List.sum_nil, if_true]
      rw [sum_range_congr (g := fun b => blockCount (w.heap b))
        fun k hk => by simp only [if_neg (Nat.ne_of_lt hk)]]
      simp only [blockCount, Block.count, List.map_const', List.length_range, List.sum_replicate, smul_zero, Nat.add_zero]
      exact e
  · exact post_bind_bal (post_check hw) fun w hw => post_ok (hw.setVar _ _)

theorem post_construct {ty : Types V} {x : Nat} {k : Call} (hk : k.begins = true) {v : V} {w : World V} (hw : Bal w) :
    Post (construct ty x k v w) Bal := by
  unfold construct
  refine post_bind fun a _ => ?_
  refine post_bind_bal (post_assert hw) fun w hw => ?_
  split
  · exact post_assert hw
  · exact post_foldlM (fun w p hw => post_constructAt hk hw) _ hw

theorem post_destroy {ty : Types V} {x : Nat} {w : World V} (hw : Bal w) : Post (destroy ty x w) Bal := by
  unfold destroy
  refine post_bind fun a _ => ?_
  refine post_bind_bal (post_assert hw) fun w hw => ?_
  split
  · exact post_assert hw
  · exact post_foldlM (fun w p hw _ h => bal_destroyAt hw h) _ hw

theorem post_forEachPair {ty : Types V} {src dst : Shape} {p q : Ptr}
    {f : Nat → Nat → Int × Int → World V → Except Fault (World V)}
    (hf : ∀ bs bd p w, Bal w → Post (f bs bd p w) Bal) {w : World V} (hw : Bal w) :
    Post (forEachPair ty src p dst q f w) Bal := by
  unfold forEachPair
  split
  · exact post_foldlM (fun w p hw => hf _ _ _ _ hw) _ hw
  · exact post_assert hw

theorem post_copyConstructAt {bs bd : Nat} {p : Int × Int} {w : World V} (hw : Bal w) :
    Post (copyConstructAt bs bd p w) Bal :=
  post_bind fun _ _ => post_constructAt rfl hw

theorem post_moveConstructAt {ty : Types V} {bs bd : Nat} {p : Int × Int} {w : World V} (hw : Bal w) :
    Post (moveConstructAt ty bs bd p w) Bal :=
  post_bind fun _ _ => post_bind_bal (fun _ h => bal_movedFromAt hw h) fun _ hw => post_constructAt rfl hw

theorem post_moveAssignAt {ty : Types V} {bs bd : Nat} {p : Int × Int} {w : World V} (hw : Bal w) :
    Post (moveAssignAt ty bs bd p w) Bal :=
  post_bind fun _ _ => post_bind_bal (fun _ h => bal_movedFromAt hw h) fun _ hw _ h => bal_assignAt (Or.inr rfl) hw h

theorem post_copyAssignAt {bs bd : Nat} {p : Int × Int} {w : World V} (hw : Bal w) :
    Post (copyAssignAt bs bd p w) Bal :=
  post_bind fun _ _ _ h => bal_assignAt (Or.inl rfl) hw h

theorem post_copyConstruct {ty : Types V} {x y : Nat} {w : World V} (hw : Bal w) :
    Post (copyConstruct ty x y w) Bal :=
  post_bind fun _ _ => post_bind fun _ _ => post_bind_bal (post_assert hw) fun _ hw =>
    post_forEachPair (fun _ _ _ _ hw => post_copyConstructAt hw) hw

theorem post_moveConstruct {ty : Types V} {x y : Nat} {w : World V} (hw : Bal w) :
    Post (moveConstruct ty x y w) Bal :=
  post_bind fun _ _ => post_bind fun _ _ => post_bind_bal (post_assert hw) fun _ hw =>
    post_forEachPair (fun _ _ _ _ hw => post_moveConstructAt hw) hw

theorem post_deallocate {ty : Types V} {x : Nat} {w : World V} (hw : Bal w) : Post (deallocate ty x w) Bal := by
  unfold deallocate
  refine post_bind fun a _ => ?_
  split
  · refine post_bind_bal (post_destroy hw) fun w hw => ?_
    refine post_bind fun r hr => ?_
    exact post_ok ((post_release hw r hr).setVar _ _)
  · exact post_ok hw

theorem post_setShape {x : Nat} {s : Shape} {w : World V} (hw : Bal w) : Post (setShapeMember x s w) Bal :=
  post_bind fun _ _ => post_ok (hw.setVar _ _)

theorem post_swapExceptAllocator {x y : Nat} {w : World V} (hw : Bal w) : Post (swapExceptAllocator x y w) Bal :=
  post_bind fun _ _ => post_bind fun _ _ => post_ok ((hw.setVar _ _).setVar _ _)

theorem post_swapAllocator {x y : Nat} {w : World V} (hw : Bal w) : Post (swapAllocator x y w) Bal :=
  post_bind fun _ _ => post_bind fun _ _ => post_ok ((hw.setVar _ _).setVar _ _)

theorem post_rebuild {ty : Types V} {x : Nat} {s : Shape} {f : World V → Except Fault (World V)} {w : World V}
    (hw : Bal w) (hf : ∀ w, Bal w → Post (f w) Bal) :
    Post (deallocate ty x w >>= fun w => setShapeMember x s w >>= fun w => allocate ty x w >>= f) Bal :=
  post_bind_bal (post_deallocate hw) fun _ hw => post_bind_bal (post_setShape hw) fun _ hw =>
    post_bind_bal (post_allocate hw) hf

theorem post_assignCopy {ty : Types V} {x y : Nat} {w : World V} (hw : Bal w) : Post (assignCopy ty x y w) Bal := by
  unfold assignCopy
  refine post_bind fun a _ => post_bind fun o _ => ?_
  split
  · split
    · exact post_assert hw
    · exact post_bind_bal (post_setShape hw) fun _ hw => post_assert hw
  · split
    · exact post_bind_bal (post_destroy hw) fun _ hw => post_copyConstruct hw
    · exact post_rebuild hw fun _ hw => post_copyConstruct hw

theorem post_assignMove {ty : Types V} {x y : Nat} {w : World V} (hw : Bal w) : Post (assignMove ty x y w) Bal := by
  unfold assignMove
  refine post_bind fun a _ => post_bind fun o _ => ?_
  split
  · split
    · exact post_assert hw
    · exact post_bind_bal (post_setShape hw) fun _ hw => post_assert hw
  · split
    · exact post_bind_bal (post_destroy hw) fun _ hw => post_moveConstruct hw
    · exact post_rebuild hw fun _ hw => post_moveConstruct hw

theorem post_assignFill {ty : Types V} {x : Nat} {s : Shape} {v : V} {w : World V} (hw : Bal w) :
    Post (assignFill ty x s v w) Bal := by
  unfold assignFill
  refine post_bind fun a _ => ?_
  dsimp only
  split
  · exact post_bind_bal (post_destroy hw) fun _ hw => post_construct rfl hw
  · exact post_rebuild hw fun _ hw => post_construct rfl hw

theorem post_newShapeAlloc {ty : Types V} {s : Shape} {al : Nat} {w : World V} (hw : Bal w) :
    Post (newShapeAlloc ty s al w) Bal :=
  post_bind_bal (post_allocate (hw.push _)) fun _ hw => post_construct rfl hw

theorem post_newMove {ty : Types V} {y : Nat} {w : World V} (hw : Bal w) : Post (newMove ty y w) Bal := by
  unfold newMove
  refine post_bind fun o _ => ?_
  dsimp only
  split
  · exact post_swapExceptAllocator (hw.push _)
  · exact post_bind_bal (post_setShape (hw.push _)) fun _ hw => post_bind_bal (post_allocate hw) fun _ hw =>
      post_moveConstruct hw

theorem post_newMoveAlloc {ty : Types V} {y al : Nat} {w : World V} (hw : Bal w) :
    Post (newMoveAlloc ty y al w) Bal := by
  unfold newMoveAlloc
  refine post_bind fun o _ => ?_
  dsimp only
  split
  · exact post_swapExceptAllocator (hw.push _)
  · exact post_bind_bal (post_setShape (hw.push _)) fun _ hw => post_bind_bal (post_allocate hw) fun _ hw =>
      post_moveConstruct hw

theorem post_delete {ty : Types V} {x : Nat} {w : World V} (hw : Bal w) : Post (delete ty x w) Bal :=
  post_bind_bal (post_deallocate hw) fun _ hw => post_ok (hw.setVar _ _)

theorem post_copyAssignOp {ty : Types V} {x y : Nat} {w : World V} (hw : Bal w) :
    Post (copyAssignOp ty x y w) Bal := by
  unfold copyAssignOp
  refine post_bind fun a _ => post_bind fun o _ => ?_
  split
  · split
    · exact post_assert hw
    · exact post_bind_bal (post_setShape hw) fun _ hw => post_assert hw
  · split
    · split
      · exact post_bind_bal (post_deallocate hw) fun w hw => post_bind fun a _ => post_assignCopy (hw.setVar _ _)
      · exact post_bind_bal (post_ok hw) fun w hw => post_bind fun a _ => post_assignCopy (hw.setVar _ _)
    · exact post_assignCopy hw

theorem post_moveAssignOp {ty : Types V} {x y : Nat} {w : World V} (hw : Bal w) :
    Post (moveAssignOp ty x y w) Bal := by
  unfold moveAssignOp
  refine post_bind fun a _ => post_bind fun o _ => ?_
  split
  · split
    · exact post_assert hw
    · exact post_bind fun _ _ => post_assert ((hw.setVar _ _).setVar _ _)
  · split
    · exact post_bind_bal (post_swapAllocator hw) fun _ hw => post_swapExceptAllocator hw
    · split
      · exact post_swapExceptAllocator hw
      · exact post_assignMove hw

theorem post_reshape {ty : Types V} {x : Nat} {s : Shape} {w : World V} (hw : Bal w) :
    Post (reshape ty x s w) Bal := by
  unfold reshape
  refine post_bind fun a _ => ?_
  dsimp only
  split
  · exact post_ok hw
  · exact post_bind_bal (post_newShapeAlloc hw) fun _ hw => post_bind fun _ _ => post_bind fun _ _ =>
      post_bind_bal (post_forEachPair (fun _ _ _ _ hw => post_moveAssignAt hw) hw) fun _ hw =>
      post_bind_bal (post_moveAssignOp hw) fun _ hw => post_delete hw

theorem post_swap {ty : Types V} {x y : Nat} {w : World V} (hw : Bal w) : Post (swap ty x y w) Bal := by
  unfold swap
  split
  · exact post_bind_bal (post_swapAllocator hw) fun _ hw => post_swapExceptAllocator hw
  · exact post_bind_bal (post_newMove hw) fun _ hw => post_bind_bal (post_moveAssignOp hw) fun _ hw =>
      post_bind_bal (post_moveAssignOp hw) fun _ hw => post_delete hw

theorem post_assignElements (keep : Bool) {ty : Types V} {src dst : Shape} {p q : Ptr} {w : World V} (hw : Bal w) :
    Post (assignElements keep ty src p dst q w) Bal := by
  unfold assignElements
  split
  · exact post_ok hw
  · refine post_bind_bal (post_assert hw) fun _ hw => post_forEachPair (fun _ _ _ _ hw => ?_) hw
    cases keep
    · exact post_moveAssignAt hw
    · exact post_copyAssignAt hw

theorem post_makeFrom (keep : Bool) {ty : Types V} {y : Nat} {src : Shape} {off : Int} {s : Shape} {al : Nat}
    {w : World V} (hw : Bal w) : Post (makeFrom keep ty y src off s al w) Bal :=
  post_bind fun _ _ => post_bind_bal (post_newShapeAlloc hw) fun _ hw => post_bind fun _ _ =>
    post_assignElements keep hw

theorem post_exec {ty : Types V} {c : Cmd V} {w : World V} (hw : Bal w) : Post (exec ty c w) Bal := by
  cases c with
  | new => exact post_newShapeAlloc hw
  | newAlloc al => exact post_newShapeAlloc hw
  | newShape s => exact post_newShapeAlloc hw
  | newShapeAlloc s al => exact post_newShapeAlloc hw
  | newFill s v => exact post_bind_bal (post_newShapeAlloc hw) fun _ hw => post_assignFill hw
  | newFillAlloc s v al => exact post_bind_bal (post_newShapeAlloc hw) fun _ hw => post_assignFill hw
  | newCopy y => exact post_bind fun _ _ => post_assignCopy (hw.push _)
  | newCopyAlloc y al => exact post_bind_bal (post_newShapeAlloc hw) fun _ hw => post_assignCopy hw
  | newMove y => exact post_newMove hw
  | newMoveAlloc y al => exact post_newMoveAlloc hw
  | delete x => exact post_delete hw
  | copyAssign x y => exact post_copyAssignOp hw
  | moveAssign x y => exact post_moveAssignOp hw
  | assignCopy x y => exact post_assignCopy hw
  | assignMove x y => exact post_assignMove hw
  | assignFill x s v => exact post_assignFill hw
  | clear x => exact post_rebuild hw fun _ hw => post_construct rfl hw
  | reshape x s => exact post_reshape hw
  | swap x y => exact post_swap hw
  | write x i v =>
    refine post_bind fun a _ => ?_
    split
    · exact post_error
    · exact fun _ h => bal_assignAt (Or.inl rfl) hw h
  | makeCopy y s al => exact post_bind fun _ _ => post_makeFrom true hw
  | makeCopyRef y src off s al => exact post_makeFrom true hw
  | makeMove y s al => exact post_bind fun _ _ => post_makeFrom false hw
  | makeMoveRef y src off s al => exact post_makeFrom false hw
  | makeMoveRvalue y s al =>
    refine post_bind fun o _ => ?_
    split
    · exact post_bind fun _ _ => post_assignCopy (hw.push _)
    · exact post_bind fun _ _ => post_makeFrom false hw
  | copyRef y src soff x dst doff => exact post_bind fun _ _ => post_bind fun _ _ => post_assignElements true hw
  | moveRef y src soff x dst doff => exact post_bind fun _ _ => post_bind fun _ _ => post_assignElements false hw
  | forEach x s off f =>
    refine post_bind fun a _ => ?_
    split
    · exact post_assert hw
    · exact post_foldlM (fun w p hw => post_bind fun _ _ _ h => bal_assignAt (Or.inl rfl) hw h) _ hw
  | transform x s off f =>
    refine post_bind fun a _ => ?_
    split
    · exact post_error
    · refine post_foldlM (fun w p hw => ?_) _ hw
      split
      · exact post_error
      · exact fun _ h => bal_assignAt (Or.inr rfl) hw h

theorem post_execAll {ty : Types V} (p : List (Cmd V)) {w : World V} (hw : Bal w) : Post (execAll ty p w) Bal :=
  post_foldlM (fun _ _ hw => post_exec hw) p hw

theorem bal_start : Bal (World.start : World V) := ⟨fun _ h => absurd rfl h, rfl⟩

/-! ### Live elements belong to arrays -/

theorem sum_range_count {l : List Int} {n : Nat} (h : ∀ o ∈ l, 0 ≤ o ∧ o < n) :
    ((List.range n).map fun k : Nat => l.count (k : Int)).sum = l.length := by
  induction l with
  | nil => simp
  | cons o l ih =>
    have ho := h o (by simp)
    obtain ⟨k, rfl⟩ := Int.eq_ofNat_of_zero_le ho.1
    have := sum_range_change (n := n) (b := k) (f := fun j : Nat => List.count (j : Int) ((k : Int) :: l))
      (g := fun j : Nat => l.count (j : Int)) (by omega) (fun j hj => by
        show List.count (j : Int) ((k : Int) :: l) = _
        rw [List.count_cons_of_ne]
        intro h; omega)
    simp only [List.count_cons_self] at this
    rw [ih fun o ho => h o (by simp [ho])] at this
    rw [List.length_cons]
    omega

theorem Holds.count {w : World V} {a : Arr} {b : Nat} {blk : Block V} (h : Holds w a b blk)
    (hl : blk.live = cnt a.shape) : blk.count = owned a := by
  rw [owned_some (by rw [h.base]; simp), ← boxList_volume]
  unfold Block.count
  rw [hl, h.size]
  unfold cnt
  rw [sum_range_count, List.length_map]
  intro o ho
  obtain ⟨i, hi, rfl⟩ := List.mem_map.1 ho
  exact elem_range (mem_boxList.1 hi)

/-- What array `x` owns in block `b`. -/
def share (w : World V) (b x : Nat) : Nat :=
  match w.vars x with
  | none => 0
  | some a => if a.buffer = some (b, 0) then owned a else 0

theorem sum_one {n b : Nat} (hb : b < n) (f : Nat → Nat) (h : ∀ k, k ≠ b → f k = 0) :
    ((List.range n).map f).sum = f b := by
  have := sum_range_change (f := f) (g := fun _ => 0) hb h
  simpa using this

theorem Inv.count {ty : Types V} {w : World V} (hI : Inv ty w) : w.count = allOwned w := by
  have h1 : ∀ b, blockCount (w.heap b) = ((List.range w.nextVar).map (share w b)).sum := by
    intro b
    cases hb : w.heap b with
    | none =>
      symm
      refine List.sum_eq_zero fun n hn => ?_
      obtain ⟨x, _, rfl⟩ := List.mem_map.1 hn
      unfold share
      split
      · rfl
      · rename_i a ha
        rw [if_neg]
        intro hbuf
        rcases (hI.good x a ha).own with h | ⟨c, blk, hh, _⟩
        · rw [h.1.buffer] at hbuf; simp at hbuf
        · rw [hh.buffer] at hbuf
          simp only [Option.some.injEq, Prod.mk.injEq, and_true] at hbuf
          subst hbuf
          rw [hh.heap] at hb
          simp at hb
    | some blk =>
      obtain ⟨x, a, ha, hbuf⟩ := hI.cover b (by rw [hb]; simp)
      rcases (hI.good x a ha).own with h | ⟨c, blk', hh, hl⟩
      · rw [h.1.buffer] at hbuf; simp at hbuf
      · have hc : c = b := by
          rw [hh.buffer] at hbuf
          simpa using hbuf
        subst hc
        have : blk' = blk := by
          rw [hh.heap] at hb; simpa using hb
        subst this
        rw [sum_one (hI.lt ha) (share w c)]
        · unfold share
          rw [ha]
          dsimp only
          rw [if_pos hbuf]
          exact hh.count hl
        · intro y hy
          unfold share
          split
          · rfl
          · rename_i a' ha'
            rw [if_neg]
            intro hbuf'
            exact hy (hI.disj _ _ _ _ _ _ _ ha' ha hbuf' hbuf)
  have h2 : ∀ x, (match w.vars x with | none => 0 | some a => owned a) =
      ((List.range w.nextBlock).map fun b => share w b x).sum := by
    intro x
    cases ha : w.vars x with
    | none => simp [share, ha]
    | some a =>
      simp only [share, ha]
      rcases (hI.good x a ha).own with h | ⟨c, blk, hh, hl⟩
      · simp [h.1.buffer, owned_null h.1.base]
      · have hc : c < w.nextBlock := by
          by_contra hc
          have := hI.fresh c (by omega)
          rw [hh.heap] at this
          simp at this
        rw [sum_one hc]
        · rw [if_pos hh.buffer]
        · intro b hb
          rw [if_neg]
          rw [hh.buffer]
          simpa using Ne.symm hb
  have hs : ∀ (n : Nat) (f : Nat → Nat), ((List.range n).map f).sum = ∑ k ∈ Finset.range n, f k := by
    intro n f
    induction n with
    | zero => rfl
    | succ n ih => rw [List.range_succ, Finset.sum_range_succ, ← ih]; simp
  have e1 : w.count = ∑ b ∈ Finset.range w.nextBlock, ∑ x ∈ Finset.range w.nextVar, share w b x := by
    unfold World.count
    simp only [h1, hs]
  have e2 : allOwned w = ∑ x ∈ Finset.range w.nextVar, ∑ b ∈ Finset.range w.nextBlock, share w b x := by
    refine (sum_range_congr fun x _ => h2 x).trans ?_
    simp only [hs]
  rw [e1, e2]
  exact Finset.sum_comm

end Nda
