import Verif.Lemmas.AutoAlloc
/-
C36: `auto_allocator`.
-/
namespace Nda.AutoAlloc

/-- C36: no sequence of allocations, deallocations (by the responsible allocator), hand-overs between
allocators that compare equal, allocator assignments and copies misuses the base allocator or fails
the assertion of `deallocate`, and the client's account of outstanding allocations stays right. -/
theorem C36_run (N : Nat) (res : Nat → Nat) (ops : List Op) :
    ∃ c, (Client.start res).run N ops = .ok c ∧ Sound N c := by
  obtain ⟨c, e, h⟩ := inv_run ops (inv_start N res)
  exact ⟨c, e, h.toSound⟩

/-- C36: after any history, `allocate(n)` returns the inline buffer if and only if that buffer is not
outstanding and `n ≤ N`; and it never returns a pointer that is outstanding. -/
theorem C36_allocate (N : Nat) (res : Nat → Nat) (ops : List Op) (c : Client)
    (hc : (Client.start res).run N ops = .ok c) (i n : Nat) :
    let p := ((c.objs i).allocate N i n c.heap).1
    p ∉ c.outstanding.map Record.ptr ∧
    (p = .inline i ↔ .inline i ∉ c.outstanding.map Record.ptr ∧ n ≤ N) ∧
    (p = .inline i ∨ ∃ k, p = .block k) := by
  obtain ⟨c', e, h⟩ := inv_run ops (inv_start N res)
  rw [hc] at e
  cases e
  obtain ⟨c'', e, h'⟩ := inv_allocate h i n
  have hd := h'.distinct
  simp only [Client.step, Except.ok.injEq] at e
  subst e
  simp only [List.map_cons, List.nodup_cons] at hd
  refine ⟨hd.1, ?_, ?_⟩
  · rw [← h.inlineIff]
    unfold AutoAllocator.allocate
    by_cases ha : (c.objs i).allocated <;> by_cases hn : n ≤ N <;> simp [ha, hn, Heap.allocate]
  · unfold AutoAllocator.allocate
    split
    · exact .inl rfl
    · exact .inr ⟨_, rfl⟩

/-- C36: deallocating an outstanding allocation with the responsible allocator frees the inline
buffer exactly if that is the pointer, and otherwise gives the block back to the base allocator. -/
theorem C36_deallocate (N : Nat) (res : Nat → Nat) (ops : List Op) (c : Client)
    (hc : (Client.start res).run N ops = .ok c) (r : Record) (hr : r ∈ c.outstanding) :
    ∃ a h, (c.objs r.owner).deallocate r.owner r.ptr r.size c.heap = .ok (a, h) ∧
      (r.ptr = .inline r.owner → a.allocated = false ∧ h = c.heap) ∧
      (r.ptr ≠ .inline r.owner → a.allocated = (c.objs r.owner).allocated ∧
        ∃ k, r.ptr = .block k ∧ ∀ b, b ∈ h.live ↔ b ∈ c.heap.live ∧ b.k ≠ k) := by
  obtain ⟨c', e, h⟩ := inv_run ops (inv_start N res)
  rw [hc] at e
  cases e
  rcases deallocate_ok h hr with ⟨i, hp, e⟩ | ⟨k, hp, e⟩
  · refine ⟨_, _, e, fun _ => ⟨rfl, rfl⟩, fun hne => ?_⟩
    rw [hp, h.inlineOwn r hr i hp] at hne
    exact absurd rfl hne
  · refine ⟨_, _, e, fun hp' => by rw [hp] at hp'; simp at hp', fun _ => ⟨rfl, k, hp, fun b => ?_⟩⟩
    simp only [List.mem_filter, decide_eq_true_eq]
    have hm := h.heapOwn r hr k hp
    constructor
    · rintro ⟨hb, hne⟩
      exact ⟨hb, fun e => hne (h.uniq b hb _ hm e)⟩
    · rintro ⟨hb, hne⟩
      exact ⟨hb, fun e => hne (by rw [e])⟩

/-- C36: allocators that compare equal can deallocate each other's allocations: the same is done to
the heap, and no inline buffer is involved. -/
theorem C36_equal_safe (N : Nat) (res : Nat → Nat) (ops : List Op) (c : Client)
    (hc : (Client.start res).run N ops = .ok c) (i j : Nat)
    (he : AutoAllocator.eq i (c.objs i) j (c.objs j) = true) (r : Record) (hr : r ∈ c.outstanding)
    (ho : r.owner = j) :
    ∃ a a' h, (c.objs i).deallocate i r.ptr r.size c.heap = .ok (a, h) ∧
      (c.objs j).deallocate j r.ptr r.size c.heap = .ok (a', h) ∧
      (i ≠ j → a = c.objs i ∧ a' = c.objs j) := by
  obtain ⟨c', e, h⟩ := inv_run ops (inv_start N res)
  rw [hc] at e
  cases e
  have hd := deallocate_ok h hr
  rw [ho] at hd
  by_cases hij : i = j
  · subst hij
    rcases hd with ⟨k, hp, e⟩ | ⟨k, hp, e⟩ <;> exact ⟨_, _, _, e, e, fun h => absurd rfl h⟩
  · rw [eq_iff h] at he
    obtain ⟨ha, _, hnj⟩ := he.resolve_left hij
    rcases hd with ⟨k, hp, e⟩ | ⟨k, hp, e⟩
    · exfalso
      have := h.inlineOwn r hr k hp
      rw [ho] at this
      rw [this, ← hp] at hnj
      exact hnj (List.mem_map_of_mem hr)
    · refine ⟨c.objs i, _, _, ?_, e, fun _ => ⟨rfl, rfl⟩⟩
      have hm := h.heapOwn r hr k hp
      rw [ho] at hm
      unfold AutoAllocator.deallocate
      rw [hp, if_neg (by simp)]
      simp only [Heap.deallocate]
      rw [ha, if_pos hm]

/-- C36: the hypothesis is needed: an allocator whose inline buffer is outstanding compares unequal
to all others, and no other allocator could release that buffer. -/
theorem C36_inline_exclusive (N : Nat) (res : Nat → Nat) (ops : List Op) (c : Client)
    (hc : (Client.start res).run N ops = .ok c) (i j : Nat) (hij : i ≠ j)
    (ho : .inline j ∈ c.outstanding.map Record.ptr) (n : Nat) :
    AutoAllocator.eq i (c.objs i) j (c.objs j) = false ∧
    AutoAllocator.eq j (c.objs j) i (c.objs i) = false ∧
    (c.objs i).deallocate i (.inline j) n c.heap = .error .badFree := by
  obtain ⟨c', e, h⟩ := inv_run ops (inv_start N res)
  rw [hc] at e
  cases e
  refine ⟨?_, ?_, ?_⟩
  · rw [← Bool.not_eq_true, eq_iff h]
    rintro (h | ⟨_, _, h⟩)
    · exact hij h
    · exact h ho
  · rw [← Bool.not_eq_true, eq_iff h]
    rintro (h | ⟨_, h, _⟩)
    · exact hij h.symm
    · exact h ho
  · unfold AutoAllocator.deallocate
    rw [if_neg (by simpa using Ne.symm hij)]
    rfl

/-- What the client holds after a program, and the state of the first two allocators. -/
def summary (r : Except Fault Client) : Option (List (Ptr × Nat × Nat) × Bool × Bool) :=
  match r with
  | .ok c => some (c.outstanding.map fun r => (r.ptr, r.size, r.owner), (c.objs 0).allocated,
      (c.objs 1).allocated)
  | .error _ => none

/-- Two small allocations and a large one from allocator 0 with `N = 4`: the first takes the buffer.
Handing the heap block over to allocator 1 is refused while the buffer is out; once it is back the
block can be handed over and is released by allocator 1. -/
example : summary ((Client.start fun _ => 0).run 4
    [.allocate 0 3, .allocate 0 2, .allocate 0 9, .handOver 1 1]) =
    some ([(.block 1, 9, 0), (.block 0, 2, 0), (.inline 0, 3, 0)], true, false) := by decide
example : summary ((Client.start fun _ => 0).run 4
    [.allocate 0 3, .allocate 0 2, .deallocate 1, .handOver 0 1, .allocate 0 4]) =
    some ([(.inline 0, 4, 0), (.block 0, 2, 1)], true, false) := by decide
example : summary ((Client.start fun _ => 0).run 4
    [.allocate 0 3, .allocate 0 2, .deallocate 1, .handOver 0 1, .allocate 0 4, .deallocate 1]) =
    some ([(.inline 0, 4, 0)], true, false) := by decide

end Nda.AutoAlloc
