import Verif.Model.Ref
import Verif.Model.Loops
/-
Model of elements as bytes: where the elements of an array are in memory, the rules of C++ for
accesses through pointers, `reinterpret` and `reinterpret_const`, and the alignment of the buffers
of `auto_allocator`.

Addresses are counted in bytes here (elsewhere in elements).  Simplifications: an object occupies
`sizeof` bytes from its address; an access through a type for bytes is an access to an object that
begins at this address; what bytes mean as a value is left open.
-/
namespace Nda

/-- A type of elements, as far as it matters for memory: its `sizeof` and `alignof`, which type it
is regardless of signedness, and whether it is `char`, `unsigned char` or `std::byte`. -/
structure ObjType where
  kind : Nat
  size : Nat
  align : Nat
  anyByte : Bool
deriving DecidableEq, Repr

/-- What can be wrong with an access. -/
inductive AccessFault where
  | null
  | misaligned
  | noObject
  | aliasing
  | constObject
deriving DecidableEq, Repr

/-- An object in memory. -/
structure Obj where
  type : ObjType
  const : Bool
deriving DecidableEq, Repr

/-- Memory: its bytes, and the objects that begin at an address. -/
structure ByteMem where
  byte : Int → Nat
  obj : Int → Option Obj

/-- C++17 [basic.lval]/11: an object of type `t` may be accessed through type `u` if the types are the same but
for signedness, or `u` is a type for bytes. -/
def ObjType.mayAccess (u t : ObjType) : Bool := u.anyByte || u.kind == t.kind

/-- The checks of an access through type `u` at address `p`. -/
def ByteMem.access (m : ByteMem) (u : ObjType) (p : Int) : Except AccessFault Obj :=
  if p % u.align ≠ 0 then .error .misaligned
  else match m.obj p with
    | none => .error .noObject
    | some o => if u.mayAccess o.type then .ok o else .error .aliasing

/-- The bytes from address `p` on. -/
def ByteMem.bytes (m : ByteMem) (p : Int) (n : Nat) : List Nat :=
  (List.range n).map fun k : Nat => m.byte (p + k)

/-- Writes bytes from address `p` on. -/
def ByteMem.setBytes (m : ByteMem) (p : Int) (bs : List Nat) : ByteMem :=
  { m with byte := fun x => if p ≤ x ∧ x < p + bs.length then bs.getD (x - p).toNat 0 else m.byte x }

/-- Reading an object through type `u`. -/
def ByteMem.load (m : ByteMem) (u : ObjType) (p : Int) : Except AccessFault (List Nat) := do
  let _ ← m.access u p
  .ok (m.bytes p u.size)

/-- Assigning to an object through type `u`. -/
def ByteMem.store (m : ByteMem) (u : ObjType) (p : Int) (bs : List Nat) : Except AccessFault ByteMem := do
  let o ← m.access u p
  if o.const then .error .constObject
  else .ok (m.setBytes p bs)

/-- Constructing an object in memory.  The address has to be aligned. -/
def ByteMem.construct (m : ByteMem) (t : ObjType) (p : Int) (bs : List Nat) : Except AccessFault ByteMem :=
  if p % t.align ≠ 0 then .error .misaligned
  else .ok { m.setBytes p bs with obj := fun x => if x = p then some ⟨t, false⟩ else m.obj x }

/-- array.h:1935-2236 `array_ref<T, Shape>` with the type of its elements and the address of its base. -/
structure TypedRef where
  base : Option Int
  type : ObjType
  const : Bool
  shape : Shape
deriving DecidableEq, Repr

/-- array.h:2080-2086 `&a(i...)`: `base_ + shape_(i...)`, which moves a `T*` by `sizeof(T)` bytes per element. -/
def TypedRef.addr (a : TypedRef) (i : Index) : Option Int :=
  a.base.map (· + a.type.size * a.shape.flatOffset i)

/-- `a(i...)` as a value. -/
def TypedRef.get (a : TypedRef) (i : Index) (m : ByteMem) : Except AccessFault (List Nat) :=
  match a.addr i with
  | none => .error .null
  | some p => m.load a.type p

/-- array.h:2080-2086: `a(i...)` is a `const T&` or a `T&`, so whether it may be assigned to. -/
def TypedRef.setEnabled (a : TypedRef) : Bool := !a.const

/-- `a(i...) = v`, where `bs` are the bytes of `v`. -/
def TypedRef.set (a : TypedRef) (i : Index) (bs : List Nat) (m : ByteMem) : Except AccessFault ByteMem :=
  match a.addr i with
  | none => .error .null
  | some p => m.store a.type p bs

/-- array.h:2999 and 3003-3004: `std::enable_if_t<sizeof(T) == sizeof(U)>`. -/
def reinterpretEnabled (u : ObjType) (a : TypedRef) : Bool := a.type.size == u.size

/-- array.h:2997-3012 `reinterpret<U>(a)`; the constness of `a` is kept. -/
def reinterpretRef (u : ObjType) (a : TypedRef) : TypedRef := ⟨a.base, u, a.const, a.shape⟩

/-- array.h:3016-3019 `reinterpret_const<U>(a)`: `const_cast<U*>` compiles if only `const` differs. -/
def reinterpretConstEnabled (u : ObjType) (a : TypedRef) : Bool := a.const && a.type == u

/-- array.h:3014-3019 `reinterpret_const<U>(a)`. -/
def reinterpretConst (u : ObjType) (a : TypedRef) : TypedRef := ⟨a.base, u, false, a.shape⟩

/-- array.h:1997-2004, 2092-2099 crops and slices of a ref: the base moves by elements. -/
def TypedRef.crop (a : TypedRef) (args : List Arg) : TypedRef :=
  ⟨a.base.map (· + a.type.size * a.shape.flatOffset (Shape.minsOfIntervals args a.shape)), a.type, a.const,
    a.shape.crop args⟩

/-- array.h:2282-2291 the ref of an array whose allocation begins at address `p`. -/
def arrayAtAddress (t : ObjType) (s : Shape) (p : Int) : TypedRef :=
  ⟨some (p - t.size * s.flatMin), t, false, s⟩

/-- array.h:2294-2301, 2574-2579 `construct(init)`: constructs every element, `bs` being the bytes of `init`. -/
def constructElements (a : TypedRef) (bs : List Nat) (m : ByteMem) : Except AccessFault ByteMem :=
  match a.base with
  | none => .ok m
  | some b => (a.shape.forEachValue (some 0)).foldlM
      (fun m o => m.construct a.type (b + a.type.size * o) bs) m

/-! ### `auto_allocator` -/

/-- What `alignas` accepts: zero, or a power of two. -/
def alignasEnabled (n : Nat) : Bool := n == 0 || 2 ^ n.log2 == n

/-- array.h:3114-3116: `auto_allocator<T, N, Alignment>` compiles. -/
def autoAllocatorEnabled (alignment : Nat) : Bool := alignasEnabled alignment

/-- array.h:3114: the default of `Alignment`. -/
def autoAllocatorDefault (t : ObjType) : Nat := t.align

/-- array.h:3234-3236: the default of `Alignment` of `uninitialized_auto_allocator`. -/
def uninitializedAutoDefault (t : ObjType) : Nat := t.size

/-- array.h:3148-3155 `auto_allocator::allocate(n)`: the address of the buffer or of memory of the base allocator. -/
def autoAllocate (N : Nat) (allocated : Bool) (buffer base : Int) (n : Nat) : Int :=
  if !allocated && n ≤ N then buffer else base

/-- Base allocators of `auto_allocator`: `std::allocator<T>` for a type `T`, or others. -/
inductive BaseAllocator where
  | std (kind : Nat)
  | other (id : Nat)
deriving DecidableEq, Repr

/-- array.h:3113-3114 the template arguments of `auto_allocator`. -/
structure AutoType where
  elem : Nat
  N : Nat
  alignment : Nat
  base : BaseAllocator
deriving DecidableEq, Repr

/-- array.h:3165-3179 `a == b` and `a != b` compile: the second parameter `auto_allocator<U, U_N, U_A>` has the base
allocator `std::allocator<U>`, and the private members of `b` are accessible only if it has the type of `a`. -/
def autoEqualEnabled (a b : AutoType) : Bool := b.base == .std b.elem && a == b

end Nda
