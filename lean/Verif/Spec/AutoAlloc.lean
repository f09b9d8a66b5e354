import Verif.Model.AutoAlloc
/-
A client of `auto_allocator` objects, with its own account of what it has allocated.
-/
namespace Nda.AutoAlloc

/-- The client's record of an allocation: pointer, requested size, and the allocator that is
responsible for it. -/
structure Record where
  ptr : Ptr
  size : Nat
  owner : Nat
deriving DecidableEq, Repr, Inhabited

/-- What the client does.  Allocators are numbered; all of one type (the same `N`). -/
inductive Op where
  /-- allocate `n` elements with allocator `i` -/
  | allocate (i n : Nat)
  /-- deallocate the `k`-th outstanding allocation with the allocator responsible for it -/
  | deallocate (k : Nat)
  /-- hand the `k`-th outstanding allocation over to allocator `i`, if `i` compares equal to the
  allocator responsible for it (this is what containers do when moved or swapped) -/
  | handOver (k i : Nat)
  /-- assign allocator `j` to allocator `i`, unless `i` is responsible for a heap allocation and the
  base allocators differ -/
  | assign (i j : Nat)
  /-- replace allocator `i`, not responsible for anything, by a copy of `j` -/
  | construct (i j : Nat)
deriving DecidableEq, Repr, Inhabited

structure Client where
  objs : Nat → AutoAllocator
  heap : Heap
  outstanding : List Record

/-- Every allocator starts unallocated, with base allocator resource `res i`. -/
def Client.start (res : Nat → Nat) : Client := ⟨fun i => ⟨false, res i⟩, ⟨0, []⟩, []⟩

def upd (f : Nat → AutoAllocator) (i : Nat) (a : AutoAllocator) : Nat → AutoAllocator :=
  fun j => if j = i then a else f j

/-- One step; an operation the client is not allowed to do is skipped. -/
def Client.step (N : Nat) (c : Client) : Op → Except Fault Client
  | .allocate i n =>
    let r := (c.objs i).allocate N i n c.heap
    .ok ⟨upd c.objs i r.2.1, r.2.2, ⟨r.1, n, i⟩ :: c.outstanding⟩
  | .deallocate k =>
    match c.outstanding[k]? with
    | none => .ok c
    | some r =>
      match (c.objs r.owner).deallocate r.owner r.ptr r.size c.heap with
      | .ok (a, h) => .ok ⟨upd c.objs r.owner a, h, c.outstanding.eraseIdx k⟩
      | .error e => .error e
  | .handOver k i =>
    match c.outstanding[k]? with
    | none => .ok c
    | some r =>
      if AutoAllocator.eq i (c.objs i) r.owner (c.objs r.owner) then
        .ok { c with outstanding := c.outstanding.set k { r with owner := i } }
      else .ok c
  | .assign i j =>
    if (c.objs i).alloc = (c.objs j).alloc ∨
        ∀ r ∈ c.outstanding, r.owner = i → r.ptr = .inline i then
      .ok { c with objs := upd c.objs i ((c.objs i).assign (c.objs j)) }
    else .ok c
  | .construct i j =>
    if ∀ r ∈ c.outstanding, r.owner ≠ i then
      .ok { c with objs := upd c.objs i (c.objs j).copy }
    else .ok c

def Client.run (N : Nat) : Client → List Op → Except Fault Client
  | c, [] => .ok c
  | c, op :: ops =>
    match c.step N op with
    | .ok c => Client.run N c ops
    | .error e => .error e

/-- The client's account is right: what it holds is distinct, every allocator has handed out its
buffer just when the client holds it (from that allocator), for a request that fits, and the base
allocators hold exactly the other allocations. -/
structure Sound (N : Nat) (c : Client) : Prop where
  distinct : (c.outstanding.map Record.ptr).Nodup
  inlineOwn : ∀ r ∈ c.outstanding, ∀ i, r.ptr = .inline i → r.owner = i
  inlineFits : ∀ r ∈ c.outstanding, ∀ i, r.ptr = .inline i → r.size ≤ N
  inlineIff : ∀ i, (c.objs i).allocated = true ↔ .inline i ∈ c.outstanding.map Record.ptr
  heapOwn : ∀ r ∈ c.outstanding, ∀ k, r.ptr = .block k →
    ⟨k, (c.objs r.owner).alloc, r.size⟩ ∈ c.heap.live
  heapIff : ∀ b, b ∈ c.heap.live → .block b.k ∈ c.outstanding.map Record.ptr

end Nda.AutoAlloc
