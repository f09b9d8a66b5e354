import Verif.Spec.Box
import Verif.Model.Bytes
/-
Specification for C87: types and objects in memory as C++ defines them.
-/
namespace Nda.Spec

/-- What C++ guarantees of `sizeof` and `alignof`: alignments are powers of two, and the size is a positive multiple
of the alignment, so that arrays can be made of every type. -/
structure GoodType (t : ObjType) : Prop where
  size : 0 < t.size
  align : ∃ k, t.align = 2 ^ k
  mult : t.align ∣ t.size
  byte : t.anyByte = true → t.size = 1

/-- The address of the element at `i` of an array of elements of `size` bytes whose base is at `b`. -/
def elemAddr (b : Int) (size : Nat) (s : List Dim) (i : List Int) : Int := b + size * offsetOf s i

/-- Every element of the ref is an object of its type, at a suitable address. -/
def Elements (a : TypedRef) (m : ByteMem) : Prop :=
  ∃ b, a.base = some b ∧ ∀ i, InBox a.shape i →
    (a.type.align : Int) ∣ elemAddr b a.type.size a.shape i ∧
    m.obj (elemAddr b a.type.size a.shape i) = some ⟨a.type, false⟩

/-- Address `x` is that of a byte of the element at `i`. -/
def ByteOf (a : TypedRef) (i : List Int) (x : Int) : Prop :=
  ∃ b, a.base = some b ∧ elemAddr b a.type.size a.shape i ≤ x ∧
    x < elemAddr b a.type.size a.shape i + a.type.size

/-- How values of a type are represented by bytes. -/
structure Representation (t : ObjType) (V : Type) where
  encode : V → List Nat
  decode : List Nat → V
  length : ∀ v, (encode v).length = t.size
  decode_encode : ∀ v, decode (encode v) = v

end Nda.Spec
