import Verif.Spec.AutoAlloc
import Mathlib.Data.List.Nodup
/-
Invariant of `auto_allocator` clients.
-/
namespace Nda.AutoAlloc

structure Inv (N : Nat) (c : Client) : Prop extends Sound N c where
  fresh : ∀ b ∈ c.heap.live, b.k < c.heap.next
  uniq : ∀ b ∈ c.heap.live, ∀ b' ∈ c.heap.live, b.k = b'.k → b = b'

theorem inv_start (N : Nat) (res : Nat → Nat) : Inv N (Client.start res) := by
  constructor
  · constructor <;> simp [Client.start]
  · simp [Client.start]
  · simp [Client.start]

theorem upd_self (f : Nat → AutoAllocator) (i : Nat) (a : AutoAllocator) : upd f i a i = a := by
  simp [upd]

theorem upd_alloc (f : Nat → AutoAllocator) (i : Nat) (a : AutoAllocator) (h : a.alloc = (f i).alloc)
    (j : Nat) : (upd f i a j).alloc = (f j).alloc := by
  unfold upd; split
  · rename_i e; rw [e, h]
  · rfl

theorem Inv.block_lt {N : Nat} {c : Client} (h : Inv N c) {r : Record} (hr : r ∈ c.outstanding)
    {k : Nat} (e : r.ptr = .block k) : k < c.heap.next := h.fresh _ (h.heapOwn r hr k e)

theorem inv_allocate {N : Nat} {c : Client} (h : Inv N c) (i n : Nat) :
    ∃ c', c.step N (.allocate i n) = .ok c' ∧ Inv N c' := by
  refine ⟨_, rfl, ?_⟩
  unfold AutoAllocator.allocate
  split
  · rename_i hc
    simp only [Bool.and_eq_true, Bool.not_eq_true', decide_eq_true_eq] at hc
    have hni : Ptr.inline i ∉ c.outstanding.map Record.ptr := by
      rw [← h.inlineIff]; simp [hc.1]
    constructor
    · constructor
      · simp only [List.map_cons, List.nodup_cons]; exact ⟨hni, h.distinct⟩
      · rintro r hr j e
        rcases List.mem_cons.1 hr with rfl | hr
        · simpa using e
        · exact h.inlineOwn r hr j e
      · rintro r hr j e
        rcases List.mem_cons.1 hr with rfl | hr
        · exact hc.2
        · exact h.inlineFits r hr j e
      · intro j
        simp only [List.map_cons, List.mem_cons]
        rw [← h.inlineIff]
        unfold upd
        split
        · rename_i e; simp [e]
        · rename_i e; simp [e]
      · rintro r hr k e
        rcases List.mem_cons.1 hr with rfl | hr
        · simp at e
        · dsimp only; rw [upd_alloc _ _ _ (by rfl)]; exact h.heapOwn r hr k e
      · intro b hb
        simp only [List.map_cons, List.mem_cons]
        exact .inr (h.heapIff b hb)
    · exact h.fresh
    · exact h.uniq
  · have hnew : Ptr.block c.heap.next ∉ c.outstanding.map Record.ptr := by
      intro hm
      obtain ⟨r, hr, e⟩ := List.mem_map.1 hm
      exact absurd (h.block_lt hr e) (Nat.lt_irrefl _)
    have hobj : upd c.objs i (c.objs i) = c.objs := by
      funext j; unfold upd; split <;> simp_all
    dsimp only [Heap.allocate]
    rw [hobj]
    constructor
    · constructor
      · simp only [List.map_cons, List.nodup_cons]; exact ⟨hnew, h.distinct⟩
      · rintro r hr j e
        rcases List.mem_cons.1 hr with rfl | hr
        · simp at e
        · exact h.inlineOwn r hr j e
      · rintro r hr j e
        rcases List.mem_cons.1 hr with rfl | hr
        · simp at e
        · exact h.inlineFits r hr j e
      · intro j
        simp only [List.map_cons, List.mem_cons]
        rw [← h.inlineIff]; simp
      · rintro r hr k e
        rcases List.mem_cons.1 hr with rfl | hr
        · simp only [Ptr.block.injEq] at e; subst e; simp
        · exact List.mem_cons_of_mem _ (h.heapOwn r hr k e)
      · intro b hb
        simp only [List.map_cons, List.mem_cons]
        rcases List.mem_cons.1 hb with rfl | hb
        · exact .inl rfl
        · exact .inr (h.heapIff b hb)
    · intro b hb
      rcases List.mem_cons.1 hb with rfl | hb
      · exact Nat.lt_succ_self _
      · exact Nat.lt_trans (h.fresh b hb) (Nat.lt_succ_self _)
    · intro b hb b' hb' e
      rcases List.mem_cons.1 hb with rfl | hb <;> rcases List.mem_cons.1 hb' with rfl | hb'
      · rfl
      · have := h.fresh b' hb'; dsimp only at e; omega
      · have := h.fresh b hb; dsimp only at e; omega
      · exact h.uniq b hb b' hb' e

theorem mem_eraseIdx_ptr {l : List Record} (hn : (l.map Record.ptr).Nodup) {k : Nat} {r : Record}
    (hk : l[k]? = some r) (p : Ptr) :
    p ∈ (l.eraseIdx k).map Record.ptr ↔ p ∈ l.map Record.ptr ∧ p ≠ r.ptr := by
  induction l generalizing k with
  | nil => simp at hk
  | cons a l ih =>
    simp only [List.map_cons, List.nodup_cons] at hn
    cases k with
    | zero =>
      simp only [List.getElem?_cons_zero, Option.some.injEq] at hk
      subst hk
      simp only [List.eraseIdx_zero, List.tail_cons, List.map_cons, List.mem_cons]
      constructor
      · intro h; exact ⟨.inr h, fun e => hn.1 (e ▸ h)⟩
      · rintro ⟨h | h, h'⟩
        · exact absurd h h'
        · exact h
    | succ k =>
      rw [List.getElem?_cons_succ] at hk
      simp only [List.eraseIdx_cons_succ, List.map_cons, List.mem_cons, ih hn.2 hk]
      have hr : r.ptr ∈ l.map Record.ptr := List.mem_map_of_mem (List.mem_of_getElem? hk)
      constructor
      · rintro (h | h)
        · exact ⟨.inl h, fun e => hn.1 (by rw [← h, e]; exact hr)⟩
        · exact ⟨.inr h.1, h.2⟩
      · rintro ⟨h | h, h'⟩
        · exact .inl h
        · exact .inr ⟨h, h'⟩

/-- The deallocation of an outstanding record is never faulty. -/
theorem deallocate_ok {N : Nat} {c : Client} (h : Inv N c) {r : Record} (hr : r ∈ c.outstanding) :
    (∃ i, r.ptr = .inline i ∧ (c.objs r.owner).deallocate r.owner r.ptr r.size c.heap =
      .ok ({ c.objs r.owner with allocated := false }, c.heap)) ∨
    (∃ k, r.ptr = .block k ∧ (c.objs r.owner).deallocate r.owner r.ptr r.size c.heap =
      .ok (c.objs r.owner, ⟨c.heap.next,
        c.heap.live.filter (fun b => b ≠ ⟨k, (c.objs r.owner).alloc, r.size⟩)⟩)) := by
  unfold AutoAllocator.deallocate
  cases hp : r.ptr with
  | inline i =>
    left
    have ho := h.inlineOwn r hr i hp
    have ha : (c.objs r.owner).allocated = true := by
      rw [h.inlineIff, ho, ← hp]; exact List.mem_map_of_mem hr
    exact ⟨i, rfl, by rw [if_pos (by rw [ho]), if_pos ha]⟩
  | block k =>
    right
    have := h.heapOwn r hr k hp
    refine ⟨k, rfl, ?_⟩
    rw [if_neg (by simp)]
    simp only [Heap.deallocate]
    rw [if_pos this]

theorem inv_deallocate {N : Nat} {c : Client} (h : Inv N c) (k : Nat) :
    ∃ c', c.step N (.deallocate k) = .ok c' ∧ Inv N c' := by
  unfold Client.step
  dsimp only
  cases hk : c.outstanding[k]? with
  | none => exact ⟨c, rfl, h⟩
  | some r =>
    have hr : r ∈ c.outstanding := List.mem_of_getElem? hk
    have hmem := mem_eraseIdx_ptr h.distinct hk
    have hsub : ∀ x ∈ c.outstanding.eraseIdx k, x ∈ c.outstanding :=
      fun x hx => List.mem_of_mem_eraseIdx hx
    have hnd : ((c.outstanding.eraseIdx k).map Record.ptr).Nodup :=
      h.distinct.sublist ((List.eraseIdx_sublist _ _).map _)
    have hne : ∀ x ∈ c.outstanding.eraseIdx k, x.ptr ≠ r.ptr :=
      fun x hx => ((hmem x.ptr).1 (List.mem_map_of_mem hx)).2
    rcases deallocate_ok h hr with ⟨i, hp, e⟩ | ⟨b, hp, e⟩
    · have ho := h.inlineOwn r hr i hp
      simp only [e]
      refine ⟨_, rfl, ?_⟩
      constructor
      · constructor
        · exact hnd
        · exact fun x hx => h.inlineOwn x (hsub x hx)
        · exact fun x hx => h.inlineFits x (hsub x hx)
        · intro j
          dsimp only
          rw [hmem, ← h.inlineIff, hp]
          unfold upd
          split
          · rename_i e; simp [e, ho]
          · rename_i e
            constructor
            · intro hj; exact ⟨hj, by rw [ho] at e; simpa using e⟩
            · exact fun hj => hj.1
        · intro x hx k' e'
          dsimp only
          rw [upd_alloc _ _ _ (by rfl)]
          exact h.heapOwn x (hsub x hx) k' e'
        · intro b hb
          dsimp only
          rw [hmem, hp]
          exact ⟨h.heapIff b hb, by simp⟩
      · exact h.fresh
      · exact h.uniq
    · have hobj : upd c.objs r.owner (c.objs r.owner) = c.objs := by
        funext j; unfold upd; split <;> simp_all
      simp only [e]
      refine ⟨_, rfl, ?_⟩
      rw [hobj]
      constructor
      · constructor
        · exact hnd
        · exact fun x hx => h.inlineOwn x (hsub x hx)
        · exact fun x hx => h.inlineFits x (hsub x hx)
        · intro j
          dsimp only
          rw [hmem, ← h.inlineIff, hp]
          simp
        · intro x hx k' e'
          simp only [List.mem_filter, decide_eq_true_eq]
          refine ⟨h.heapOwn x (hsub x hx) k' e', fun e'' => hne x hx ?_⟩
          simp only [Block.mk.injEq] at e''
          rw [e', hp, e''.1]
        · intro b' hb'
          simp only [List.mem_filter, decide_eq_true_eq] at hb'
          dsimp only
          rw [hmem, hp]
          refine ⟨h.heapIff b' hb'.1, fun e'' => hb'.2 ?_⟩
          exact h.uniq _ hb'.1 _ (h.heapOwn r hr b hp) (by simpa using e'')
      · intro b' hb'
        exact h.fresh b' (List.mem_filter.1 hb').1
      · intro b1 h1 b2 h2
        exact h.uniq b1 (List.mem_filter.1 h1).1 b2 (List.mem_filter.1 h2).1

theorem eq_iff {N : Nat} {c : Client} (h : Inv N c) (i j : Nat) :
    AutoAllocator.eq i (c.objs i) j (c.objs j) = true ↔
      i = j ∨ ((c.objs i).alloc = (c.objs j).alloc ∧ .inline i ∉ c.outstanding.map Record.ptr ∧
        .inline j ∉ c.outstanding.map Record.ptr) := by
  rw [← h.inlineIff, ← h.inlineIff]
  unfold AutoAllocator.eq
  by_cases hi : (c.objs i).allocated <;> by_cases hj : (c.objs j).allocated <;> simp [hi, hj]
  rintro rfl; rfl

theorem inv_handOver {N : Nat} {c : Client} (h : Inv N c) (k i : Nat) :
    ∃ c', c.step N (.handOver k i) = .ok c' ∧ Inv N c' := by
  unfold Client.step
  dsimp only
  cases hk : c.outstanding[k]? with
  | none => exact ⟨c, rfl, h⟩
  | some r =>
    dsimp only
    have hr : r ∈ c.outstanding := List.mem_of_getElem? hk
    split
    · rename_i he
      refine ⟨_, rfl, ?_⟩
      rw [eq_iff h] at he
      rcases he with rfl | ⟨ha, _, hj⟩
      · have : c.outstanding.set k r = c.outstanding := by
          obtain ⟨hlt, hg⟩ := List.getElem?_eq_some_iff.1 hk
          rw [← hg, List.set_getElem_self]
        rw [this]; exact h
      · have hptr : (c.outstanding.set k { r with owner := i }).map Record.ptr =
            c.outstanding.map Record.ptr := by
          rw [List.map_set]
          have hk' : (c.outstanding.map Record.ptr)[k]? = some r.ptr := by simp [hk]
          obtain ⟨hlt, hg⟩ := List.getElem?_eq_some_iff.1 hk'
          rw [← hg, List.set_getElem_self]
        have hm : ∀ x ∈ c.outstanding.set k { r with owner := i },
            x ∈ c.outstanding ∨ x = { r with owner := i } :=
          fun x hx => List.mem_or_eq_of_mem_set hx
        have hni : ∀ j, r.ptr ≠ .inline j := by
          intro j e
          have ho := h.inlineOwn r hr j e
          rw [ho, ← e] at hj
          exact hj (List.mem_map_of_mem hr)
        constructor
        · constructor
          · dsimp only; rw [hptr]; exact h.distinct
          · intro x hx j e
            rcases hm x hx with hx | rfl
            · exact h.inlineOwn x hx j e
            · exact absurd e (hni j)
          · intro x hx j e
            rcases hm x hx with hx | rfl
            · exact h.inlineFits x hx j e
            · exact absurd e (hni j)
          · intro j; dsimp only; rw [hptr]; exact h.inlineIff j
          · intro x hx b e
            rcases hm x hx with hx | rfl
            · exact h.heapOwn x hx b e
            · dsimp only; rw [ha]; exact h.heapOwn r hr b e
          · intro b hb; dsimp only; rw [hptr]; exact h.heapIff b hb
        · exact h.fresh
        · exact h.uniq
    · exact ⟨c, rfl, h⟩

theorem inv_assign {N : Nat} {c : Client} (h : Inv N c) (i j : Nat) :
    ∃ c', c.step N (.assign i j) = .ok c' ∧ Inv N c' := by
  unfold Client.step
  dsimp only
  split
  · rename_i hc
    refine ⟨_, rfl, ?_⟩
    constructor
    · constructor
      · exact h.distinct
      · exact h.inlineOwn
      · exact h.inlineFits
      · intro k
        rw [← h.inlineIff]
        dsimp only [upd, AutoAllocator.assign]
        split
        · rename_i e; rw [e]
        · rfl
      · intro x hx k e
        have := h.heapOwn x hx k e
        dsimp only [upd, AutoAllocator.assign]
        split
        · rename_i eo
          rcases hc with hc | hc
          · rw [← hc, ← eo]; exact this
          · rw [hc x hx eo] at e; simp at e
        · exact this
      · exact h.heapIff
    · exact h.fresh
    · exact h.uniq
  · exact ⟨c, rfl, h⟩

theorem inv_construct {N : Nat} {c : Client} (h : Inv N c) (i j : Nat) :
    ∃ c', c.step N (.construct i j) = .ok c' ∧ Inv N c' := by
  unfold Client.step
  dsimp only
  split
  · rename_i hc
    refine ⟨_, rfl, ?_⟩
    constructor
    · constructor
      · exact h.distinct
      · exact h.inlineOwn
      · exact h.inlineFits
      · intro k
        rw [← h.inlineIff]
        dsimp only [upd, AutoAllocator.copy]
        split
        · rename_i e
          subst e
          simp only [Bool.false_eq_true, false_iff]
          rw [h.inlineIff]
          intro hm
          obtain ⟨r, hr, e⟩ := List.mem_map.1 hm
          exact hc r hr (h.inlineOwn r hr _ e)
        · rfl
      · intro x hx k e
        have := h.heapOwn x hx k e
        dsimp only [upd, AutoAllocator.copy]
        rw [if_neg (hc x hx)]
        exact this
      · exact h.heapIff
    · exact h.fresh
    · exact h.uniq
  · exact ⟨c, rfl, h⟩

theorem inv_step {N : Nat} {c : Client} (h : Inv N c) (op : Op) :
    ∃ c', c.step N op = .ok c' ∧ Inv N c' := by
  cases op with
  | allocate i n => exact inv_allocate h i n
  | deallocate k => exact inv_deallocate h k
  | handOver k i => exact inv_handOver h k i
  | assign i j => exact inv_assign h i j
  | construct i j => exact inv_construct h i j

theorem inv_run {N : Nat} (ops : List Op) {c : Client} (h : Inv N c) :
    ∃ c', c.run N ops = .ok c' ∧ Inv N c' := by
  induction ops generalizing c with
  | nil => exact ⟨c, rfl, h⟩
  | cons op ops ih =>
    obtain ⟨c1, e1, h1⟩ := inv_step h op
    obtain ⟨c2, e2, h2⟩ := ih h1
    exact ⟨c2, by rw [Client.run, e1]; exact e2, h2⟩

end Nda.AutoAlloc
