/-
Model of `auto_allocator` (array.h:3110-3179) and of the base allocator it falls back to.

A base allocator is identified by the resource it allocates from; two base allocators are equal
when they use the same resource (every `std::allocator` uses the same one).  Each `auto_allocator`
object is identified by a number, which stands for the address of its `buffer` member.
-/
namespace Nda.AutoAlloc

/-- A pointer: the inline buffer of an `auto_allocator` object, or a block of the heap. -/
inductive Ptr where
  | inline (self : Nat)
  | block (k : Nat)
deriving DecidableEq, Repr, Inhabited

/-- Misuse of the base allocator, and the assertion of `deallocate`. -/
inductive Fault where
  /-- base `deallocate` of a pointer that is not allocated, or from another resource, or with
  another size -/
  | badFree
  /-- array.h:3159 `assert(allocated)` -/
  | notAllocated
deriving DecidableEq, Repr, Inhabited

/-- A block of the base allocators: number, resource and size in elements. -/
structure Block where
  k : Nat
  resource : Nat
  size : Nat
deriving DecidableEq, Repr, Inhabited

/-- The storage behind the base allocators.  Blocks are numbered consecutively and never reused
while they are live. -/
structure Heap where
  next : Nat
  live : List Block
deriving DecidableEq, Repr, Inhabited

/-- `std::allocator_traits<BaseAlloc>::allocate(alloc, n)`. -/
def Heap.allocate (h : Heap) (resource n : Nat) : Ptr × Heap :=
  (.block h.next, ⟨h.next + 1, ⟨h.next, resource, n⟩ :: h.live⟩)

/-- `std::allocator_traits<BaseAlloc>::deallocate(alloc, ptr, n)`. -/
def Heap.deallocate (h : Heap) (resource : Nat) (p : Ptr) (n : Nat) : Except Fault Heap :=
  match p with
  | .inline _ => .error .badFree
  | .block k =>
    if ⟨k, resource, n⟩ ∈ h.live then .ok ⟨h.next, h.live.filter (fun b => b ≠ ⟨k, resource, n⟩)⟩
    else .error .badFree

/-- array.h:3116-3118: the members `allocated` and `alloc` (by its resource). -/
structure AutoAllocator where
  allocated : Bool
  alloc : Nat
deriving DecidableEq, Repr, Inhabited

/-- array.h:3138 `auto_allocator(const auto_allocator&)`; 3139 is the same with a moved `alloc`. -/
def AutoAllocator.copy (a : AutoAllocator) : AutoAllocator := ⟨false, a.alloc⟩

/-- array.h:3140-3143 `operator=(const auto_allocator&)`, likewise 3144-3147. -/
def AutoAllocator.assign (a b : AutoAllocator) : AutoAllocator := ⟨a.allocated, b.alloc⟩

/-- array.h:3149-3156 `allocate(n)` for the object `self` with template parameter `N`. -/
def AutoAllocator.allocate (N : Nat) (self : Nat) (a : AutoAllocator) (n : Nat) (h : Heap) :
    Ptr × AutoAllocator × Heap :=
  if !a.allocated && n ≤ N then (.inline self, { a with allocated := true }, h)
  else
    let r := h.allocate a.alloc n
    (r.1, a, r.2)

/-- array.h:3157-3164 `deallocate(ptr, n)`. -/
def AutoAllocator.deallocate (self : Nat) (a : AutoAllocator) (p : Ptr) (n : Nat) (h : Heap) :
    Except Fault (AutoAllocator × Heap) :=
  if p = .inline self then
    if a.allocated then .ok ({ a with allocated := false }, h) else .error .notAllocated
  else
    match h.deallocate a.alloc p n with
    | .ok h => .ok (a, h)
    | .error e => .error e

/-- array.h:3166-3173 `operator==`. -/
def AutoAllocator.eq (self : Nat) (a : AutoAllocator) (other : Nat) (b : AutoAllocator) : Bool :=
  if a.allocated || b.allocated then self == other else a.alloc == b.alloc

end Nda.AutoAlloc
