import Verif.Model.Array
import Verif.Spec.Box
import Verif.Spec.Strides
/-
Vocabulary for statements about `array` objects: what a caller must make sure of, and what a program
state looks like.
-/
namespace Nda
open Spec

variable {V : Type}

/-! ### Preconditions -/

/-- Shapes arrays can have: the rank of the type, no negative extent, and no negative stride if there
are no elements. -/
structure ShapeOk (ty : Types V) (s : Shape) : Prop where
  rank : List.length s = List.length ty.defaultShape
  nonNeg : NonNeg s
  pos : Pos s ∨ ∀ d ∈ s, Known d → 0 ≤ d.stride

/-- What is asked of the types: the default shape can be the shape of an array, and an allocator with a buffer
is not moved or swapped with the container (as `auto_allocator`, array.h:3122-3124). -/
structure TypesOk (ty : Types V) : Prop where
  shape : ShapeOk ty ty.defaultShape
  inline : ty.inlineSize = 0 ∨ ty.propagateMove = false ∧ ty.propagateSwap = false

/-- The elements of `o` can be copied or moved one by one: it owns memory, or it has no elements and, in
debug builds, no unknown strides. -/
def SrcOk (ty : Types V) (o : Arr) : Prop :=
  o.base = none → ¬ Pos o.shape ∧ (ty.debug = true → ∀ d ∈ o.shape, Known d)

/-- An array without memory has no elements. -/
def NotHollow (a : Arr) : Prop := a.base = none → ¬ Pos a.shape

/-- `array(array&&)` takes over the memory. -/
def TakesNew (ty : Types V) (o : Arr) : Prop :=
  ty.propagateMove = true ∨ o.alloc.allocated = false ∧ ty.defaultAlloc = o.alloc.arena

/-- `operator=(array&&)` takes over the memory. -/
def TakesAssign (ty : Types V) (a o : Arr) : Prop :=
  ty.propagateMove = true ∨
    a.alloc.allocated = false ∧ o.alloc.allocated = false ∧ a.alloc.arena = o.alloc.arena

/-- The same elements at the same place, of the same shape and from the same arena. -/
structure SameMembers (a o : Arr) : Prop where
  base : a.base = o.base
  buffer : a.buffer = o.buffer
  bufferSize : a.bufferSize = o.bufferSize
  shape : a.shape = o.shape
  arena : a.alloc.arena = o.alloc.arena

/-- The allocator for arena `al` compares equal to the one of `o`. -/
def SameAlloc (o : Arr) (al : Nat) : Prop := o.alloc.allocated = false ∧ al = o.alloc.arena

/-- What `operator=(array&&)` asks for. -/
structure MoveOk (ty : Types V) (a o : Arr) : Prop where
  null : a.base = none → o.base = none → ty.debug = true → ¬ Pos o.shape
  src : a.base ≠ o.base → ¬ TakesAssign ty a o → SrcOk ty o

/-- What `reshape` asks for in debug builds: if one of the arrays has no memory, the product of the
extents of the intersection is not positive. -/
def ReshapeOk (ty : Types V) (a : Arr) (s : Shape) : Prop :=
  (a.base = none ∨ ¬ Pos s) → ty.debug = true → (Shape.clamp s.resolve a.shape).empty = true

/-- The `array_ref` of shape `src` whose base pointer is `off` elements after the one of `o` can be copied or
moved to an array of shape `s`: its indices include those of `s`, and at these indices it refers to elements
of `o`. -/
structure ViewOk (ty : Types V) (o : Arr) (src : Shape) (off : Int) (s : Shape) : Prop where
  shape : ShapeOk ty s
  rank : List.length src = List.length s
  nonNeg : NonNeg src
  sub : ∀ i, InBox s i → InBox src i ∧ o.base ≠ none ∧
    ∃ j, InBox o.shape j ∧ offsetOf o.shape j = off + offsetOf src i

/-- At index `i` the view of `o` with shape `s` and offset `off` refers to an element of `o`. -/
def Refers (o : Arr) (s : Shape) (off : Int) (i : Index) : Prop :=
  o.base ≠ none ∧ ∃ j, InBox o.shape j ∧ offsetOf o.shape j = off + offsetOf s i

/-- A view of `o` can be copied or moved to a view of `a`: at the indices of the destination, which are
indices of the source, both refer to elements. -/
structure PairOk (o : Arr) (src : Shape) (soff : Int) (a : Arr) (dst : Shape) (doff : Int) : Prop where
  rank : List.length src = List.length dst
  nonNegSrc : NonNeg src
  nonNegDst : NonNeg dst
  sub : ∀ i, InBox dst i → InBox src i ∧ Refers o src soff i ∧ Refers a dst doff i

/-- All elements of a view of `a` are elements of `a`. -/
structure PartOk (a : Arr) (s : Shape) (off : Int) : Prop where
  nonNeg : NonNeg s
  sub : ∀ i, InBox s i → Refers a s off i

/-- At the indices of `s` the addresses of `src` are different. -/
def InjectiveOn (src s : Shape) : Prop :=
  ∀ i j, InBox s i → InBox s j → offsetOf src i = offsetOf src j → i = j

/-- `P` holds of object `x`, which exists. -/
def With (w : World V) (x : Nat) (P : Arr → Prop) : Prop :=
  match w.vars x with
  | none => False
  | some a => P a

/-- What a caller must make sure of before executing a statement. -/
def Allowed (ty : Types V) (w : World V) : Cmd V → Prop
  | .new => True
  | .newAlloc _ => True
  | .newShape s => ShapeOk ty s
  | .newShapeAlloc s _ => ShapeOk ty s
  | .newFill s _ => ShapeOk ty s
  | .newFillAlloc s _ _ => ShapeOk ty s
  | .newCopy y => With w y (SrcOk ty)
  | .newCopyAlloc y _ => With w y (SrcOk ty)
  | .newMove y => With w y fun o => TakesNew ty o ∨ SrcOk ty o
  | .newMoveAlloc y al => With w y fun o => SameAlloc o al ∨ SrcOk ty o
  | .delete x => With w x fun _ => True
  | .copyAssign x y => With w x fun _ => With w y (SrcOk ty)
  | .moveAssign x y => With w x fun a => With w y fun o => MoveOk ty a o
  | .assignCopy x y => With w x fun _ => With w y (SrcOk ty)
  | .assignMove x y => With w x fun _ => With w y (SrcOk ty)
  | .assignFill x s _ => With w x fun a => NotHollow a ∧ ShapeOk ty s
  | .clear x => With w x fun _ => True
  | .reshape x s => With w x fun a => NotHollow a ∧ ShapeOk ty s ∧ ReshapeOk ty a s
  | .swap x y => With w x fun a => With w y fun o =>
      SrcOk ty a ∧ SrcOk ty o ∧ (x = y → ty.debug = true → ¬ Pos ty.defaultShape)
  | .write x i _ => With w x fun a => a.base ≠ none ∧ InBox a.shape i
  | .makeCopy y s _ => With w y fun o => ViewOk ty o o.shape 0 s
  | .makeCopyRef y src off s _ => With w y fun o => ViewOk ty o src off s
  | .makeMove y s _ => With w y fun o => ViewOk ty o o.shape 0 s
  | .makeMoveRef y src off s _ => With w y fun o => ViewOk ty o src off s
  | .makeMoveRvalue y s al => With w y fun o =>
      (o.shape = s ∧ SameAlloc o al → SrcOk ty o) ∧ (¬ (o.shape = s ∧ SameAlloc o al) → ViewOk ty o o.shape 0 s)
  | .copyRef y src soff x dst doff => With w y fun o => With w x fun a => PairOk o src soff a dst doff
  | .moveRef y src soff x dst doff => With w y fun o => With w x fun a => PairOk o src soff a dst doff
  | .forEach x s off _ => With w x fun a => PartOk a s off
  | .transform x s off _ => With w x fun a => PartOk a s off

/-- All statements of a program are allowed where they are executed. -/
def AllowedRun (ty : Types V) : List (Cmd V) → World V → Prop
  | [], _ => True
  | c :: cs, w => Allowed ty w c ∧
    match exec ty c w with
    | .ok w' => AllowedRun ty cs w'
    | .error _ => True

/-- Program states. -/
def Reachable (ty : Types V) (w : World V) : Prop :=
  ∃ p, AllowedRun ty p World.start ∧ execAll ty p World.start = .ok w

/-- The conditions that are left when assertions are compiled out and a default constructed shape has no
elements: the objects exist, shapes are valid and indices in range. -/
def Plain (ty : Types V) (w : World V) : Cmd V → Prop
  | .new => True
  | .newAlloc _ => True
  | .newShape s => ShapeOk ty s
  | .newShapeAlloc s _ => ShapeOk ty s
  | .newFill s _ => ShapeOk ty s
  | .newFillAlloc s _ _ => ShapeOk ty s
  | .newCopy y => With w y fun _ => True
  | .newCopyAlloc y _ => With w y fun _ => True
  | .newMove y => With w y fun _ => True
  | .newMoveAlloc y _ => With w y fun _ => True
  | .delete x => With w x fun _ => True
  | .copyAssign x y => With w x fun _ => With w y fun _ => True
  | .moveAssign x y => With w x fun _ => With w y fun _ => True
  | .assignCopy x y => With w x fun _ => With w y fun _ => True
  | .assignMove x y => With w x fun _ => With w y fun _ => True
  | .assignFill x s _ => With w x fun _ => ShapeOk ty s
  | .clear x => With w x fun _ => True
  | .reshape x s => With w x fun _ => ShapeOk ty s
  | .swap x y => With w x fun _ => With w y fun _ => True
  | .write x i _ => With w x fun a => InBox a.shape i
  | .makeCopy y s _ => With w y fun o => ViewOk ty o o.shape 0 s
  | .makeCopyRef y src off s _ => With w y fun o => ViewOk ty o src off s
  | .makeMove y s _ => With w y fun o => ViewOk ty o o.shape 0 s
  | .makeMoveRef y src off s _ => With w y fun o => ViewOk ty o src off s
  | .makeMoveRvalue y s al => With w y fun o =>
      (¬ (o.shape = s ∧ SameAlloc o al) → ViewOk ty o o.shape 0 s)
  | .copyRef y src soff x dst doff => With w y fun o => With w x fun a => PairOk o src soff a dst doff
  | .moveRef y src soff x dst doff => With w y fun o => With w x fun a => PairOk o src soff a dst doff
  | .forEach x s off _ => With w x fun a => PartOk a s off
  | .transform x s off _ => With w x fun a => PartOk a s off

def PlainRun (ty : Types V) : List (Cmd V) → World V → Prop
  | [], _ => True
  | c :: cs, w => Plain ty w c ∧
    match exec ty c w with
    | .ok w' => PlainRun ty cs w'
    | .error _ => True

/-! ### States -/

/-- Every allocation belongs to exactly one array, has the size of that array, is from its arena or is the
buffer of its allocator, which knows, and every
element of it is alive as many times as there are indices of the array addressing it. -/
structure Balanced (w : World V) : Prop where
  owner : ∀ b blk, w.heap b = some blk → ∃ x a p, w.vars x = some a ∧ a.buffer = some (b, 0) ∧
    a.base = some (b, p) ∧ a.bufferSize = blk.size ∧
    blk.source = (if a.alloc.allocated then .inline x else .arena a.alloc.arena) ∧
    (∀ i, InBox a.shape i → 0 ≤ p + offsetOf a.shape i ∧ p + offsetOf a.shape i < blk.size) ∧
    ∀ l, Enumerates a.shape l → ∀ o, blk.live o = (l.filter fun i => p + offsetOf a.shape i = o).length
  unique : ∀ x y a a' b, w.vars x = some a → w.vars y = some a' → a.buffer = some (b, 0) →
    a'.buffer = some (b, 0) → x = y

/-- Object `x` has shape `s` and the elements `f`. -/
def Contents (w : World V) (x : Nat) (s : Shape) (f : Index → V) : Prop :=
  (∃ a, w.vars x = some a ∧ a.shape = s) ∧ ∀ i, InBox s i → elem w x i = .ok (f i)

/-- Reading through the `array_ref` of shape `src` whose base is `off` elements after the one of `y`. -/
def refElem (w : World V) (y : Nat) (src : Shape) (off : Int) (i : Index) : Except Fault V := do
  let o ← w.get y
  match o.base with
  | none => .error .null
  | some (b, p) => readAt w b (p + off + src.flatOffset i)

/-- The object a statement creates, assigns to or moves from. -/
def Changes (w : World V) : Cmd V → Nat → Prop
  | .new, z => z = w.nextVar
  | .newAlloc _, z => z = w.nextVar
  | .newShape _, z => z = w.nextVar
  | .newShapeAlloc _ _, z => z = w.nextVar
  | .newFill _ _, z => z = w.nextVar
  | .newFillAlloc _ _ _, z => z = w.nextVar
  | .newCopy _, z => z = w.nextVar
  | .newCopyAlloc _ _, z => z = w.nextVar
  | .newMove y, z => z = w.nextVar ∨ z = y
  | .newMoveAlloc y _, z => z = w.nextVar ∨ z = y
  | .delete x, z => z = x
  | .copyAssign x _, z => z = x
  | .moveAssign x y, z => z = x ∨ z = y
  | .assignCopy x _, z => z = x
  | .assignMove x y, z => z = x ∨ z = y
  | .assignFill x _ _, z => z = x
  | .clear x, z => z = x
  | .reshape x _, z => z = x
  | .swap x y, z => z = x ∨ z = y
  | .write x _ _, z => z = x
  | .makeCopy _ _ _, z => z = w.nextVar
  | .makeCopyRef _ _ _ _ _, z => z = w.nextVar
  | .makeMove y _ _, z => z = w.nextVar ∨ z = y
  | .makeMoveRef y _ _ _ _, z => z = w.nextVar ∨ z = y
  | .makeMoveRvalue y _ _, z => z = w.nextVar ∨ z = y
  | .copyRef _ _ _ x _ _, z => z = x
  | .moveRef y _ _ x _ _, z => z = x ∨ z = y
  | .forEach x _ _ _, z => z = x
  | .transform x _ _ _, z => z = x

/-! ### Deciding preconditions of concrete programs -/

def decInBox : (s : List Dim) → (i : List Int) → Decidable (InBox s i)
  | [], [] => .isTrue trivial
  | [], _ :: _ => .isFalse fun h => h
  | _ :: _, [] => .isFalse fun h => h
  | d :: ds, i :: is =>
    match (inferInstance : Decidable (d.min ≤ i ∧ i < d.min + d.extent)), decInBox ds is with
    | .isTrue h1, .isTrue h2 => .isTrue ⟨h1, h2⟩
    | .isFalse h1, _ => .isFalse fun h => h1 h.1
    | _, .isFalse h2 => .isFalse fun h => h2 h.2

instance (s : List Dim) (i : List Int) : Decidable (InBox s i) := decInBox s i

instance (s : Shape) : Decidable (Pos s) := by unfold Pos; infer_instance
instance (s : Shape) : Decidable (NonNeg s) := by unfold NonNeg; infer_instance
instance (d : Dim) : Decidable (Known d) := by unfold Known; infer_instance

instance (ty : Types V) (s : Shape) : Decidable (ShapeOk ty s) :=
  decidable_of_iff (List.length s = List.length ty.defaultShape ∧ NonNeg s ∧
    (Pos s ∨ ∀ d ∈ s, Known d → 0 ≤ d.stride)) ⟨fun h => ⟨h.1, h.2.1, h.2.2⟩, fun h => ⟨h.1, h.2, h.3⟩⟩

instance (ty : Types V) (o : Arr) : Decidable (SrcOk ty o) := by unfold SrcOk; infer_instance
instance (o : Arr) : Decidable (NotHollow o) := by unfold NotHollow; infer_instance
instance (ty : Types V) (o : Arr) : Decidable (TakesNew ty o) := by unfold TakesNew; infer_instance
instance (ty : Types V) (a o : Arr) : Decidable (TakesAssign ty a o) := by unfold TakesAssign; infer_instance
instance (o : Arr) (al : Nat) : Decidable (SameAlloc o al) := by unfold SameAlloc; infer_instance
instance (ty : Types V) : Decidable (TypesOk ty) :=
  decidable_of_iff (ShapeOk ty ty.defaultShape ∧
    (ty.inlineSize = 0 ∨ ty.propagateMove = false ∧ ty.propagateSwap = false))
    ⟨fun h => ⟨h.1, h.2⟩, fun h => ⟨h.1, h.2⟩⟩
instance (ty : Types V) (a o : Arr) : Decidable (MoveOk ty a o) :=
  decidable_of_iff ((a.base = none → o.base = none → ty.debug = true → ¬ Pos o.shape) ∧
    (a.base ≠ o.base → ¬ TakesAssign ty a o → SrcOk ty o)) ⟨fun h => ⟨h.1, h.2⟩, fun h => ⟨h.1, h.2⟩⟩
instance (ty : Types V) (a : Arr) (s : Shape) : Decidable (ReshapeOk ty a s) := by
  unfold ReshapeOk; infer_instance

def decAllBox : (s : List Dim) → (P : List Int → Prop) → (∀ i, Decidable (P i)) →
    Decidable (∀ i, InBox s i → P i)
  | [], P, h => @decidable_of_iff _ (P []) ⟨fun hp i hi => by
      cases i with
      | nil => exact hp
      | cons _ _ => exact absurd hi (by simp [InBox]), fun hp => hp [] trivial⟩ (h [])
  | d :: ds, P, h =>
    have : ∀ k : Nat, Decidable (∀ is, InBox ds is → P ((d.min + k) :: is)) := fun k =>
      decAllBox ds (fun is => P ((d.min + k) :: is)) fun is => h _
    decidable_of_iff (∀ k ∈ List.range d.extent.toNat, ∀ is, InBox ds is → P ((d.min + (k : Nat)) :: is)) (by
      constructor
      · intro hk i hi
        cases i with
        | nil => exact absurd hi (by simp [InBox])
        | cons i is =>
          obtain ⟨h1, h2⟩ := hi
          have := hk (i - d.min).toNat (List.mem_range.2 (by omega)) is h2
          have e : d.min + ((i - d.min).toNat : Nat) = i := by omega
          rwa [e] at this
      · intro hp k hk is his
        rw [List.mem_range] at hk
        exact hp _ ⟨⟨by omega, by omega⟩, his⟩)

instance (s : List Dim) (P : List Int → Prop) [∀ i, Decidable (P i)] : Decidable (∀ i, InBox s i → P i) :=
  decAllBox s P inferInstance

instance (s : List Dim) (P : List Int → Prop) [∀ i, Decidable (P i)] : Decidable (∃ i, InBox s i ∧ P i) :=
  decidable_of_iff (¬ ∀ i, InBox s i → ¬ P i) (by
    constructor
    · intro h
      by_contra hc
      exact h fun i hi hp => hc ⟨i, hi, hp⟩
    · rintro ⟨i, hi, hp⟩ h
      exact h i hi hp)

instance (ty : Types V) (o : Arr) (src : Shape) (off : Int) (s : Shape) : Decidable (ViewOk ty o src off s) :=
  decidable_of_iff (ShapeOk ty s ∧ List.length src = List.length s ∧ NonNeg src ∧
    ∀ i, InBox s i → InBox src i ∧ o.base ≠ none ∧ ∃ j, InBox o.shape j ∧ offsetOf o.shape j = off + offsetOf src i)
    ⟨fun h => ⟨h.1, h.2.1, h.2.2.1, h.2.2.2⟩, fun h => ⟨h.1, h.2, h.3, h.4⟩⟩

instance (o : Arr) (s : Shape) (off : Int) (i : Index) : Decidable (Refers o s off i) := by
  unfold Refers; infer_instance

instance (o : Arr) (src : Shape) (soff : Int) (a : Arr) (dst : Shape) (doff : Int) :
    Decidable (PairOk o src soff a dst doff) :=
  decidable_of_iff (List.length src = List.length dst ∧ NonNeg src ∧ NonNeg dst ∧
    ∀ i, InBox dst i → InBox src i ∧ Refers o src soff i ∧ Refers a dst doff i)
    ⟨fun h => ⟨h.1, h.2.1, h.2.2.1, h.2.2.2⟩, fun h => ⟨h.1, h.2, h.3, h.4⟩⟩

instance (a : Arr) (s : Shape) (off : Int) : Decidable (PartOk a s off) :=
  decidable_of_iff (NonNeg s ∧ ∀ i, InBox s i → Refers a s off i) ⟨fun h => ⟨h.1, h.2⟩, fun h => ⟨h.1, h.2⟩⟩

instance (w : World V) (x : Nat) (P : Arr → Prop) [∀ a, Decidable (P a)] : Decidable (With w x P) := by
  unfold With; split <;> infer_instance

instance (ty : Types V) (w : World V) (c : Cmd V) : Decidable (Allowed ty w c) := by
  cases c <;> unfold Allowed <;> infer_instance

instance (ty : Types V) (w : World V) (c : Cmd V) : Decidable (Plain ty w c) := by
  cases c <;> unfold Plain <;> infer_instance

def decAllowedRun (ty : Types V) : (p : List (Cmd V)) → (w : World V) → Decidable (AllowedRun ty p w)
  | [], _ => .isTrue trivial
  | c :: cs, w => by
    unfold AllowedRun
    cases h : exec ty c w with
    | ok w' =>
      have := decAllowedRun ty cs w'
      infer_instance
    | error f => infer_instance

instance (ty : Types V) (p : List (Cmd V)) (w : World V) : Decidable (AllowedRun ty p w) :=
  decAllowedRun ty p w

def decPlainRun (ty : Types V) : (p : List (Cmd V)) → (w : World V) → Decidable (PlainRun ty p w)
  | [], _ => .isTrue trivial
  | c :: cs, w => by
    unfold PlainRun
    cases h : exec ty c w with
    | ok w' =>
      have := decPlainRun ty cs w'
      infer_instance
    | error f => infer_instance

instance (ty : Types V) (p : List (Cmd V)) (w : World V) : Decidable (PlainRun ty p w) :=
  decPlainRun ty p w

end Nda
