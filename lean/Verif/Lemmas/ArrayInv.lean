import Verif.Lemmas.ArrayShape
import Verif.Spec.Array
/-
The invariant of programs using arrays, and the effect of the private member functions.
-/
namespace Nda
open Spec

/-- Whether arrays without memory may have any shape, as they do after an exception of the allocator
(`Verif.Lemmas.Exceptions`). -/
class Hollow (V : Type) where
  ok : Prop

/-- Without exceptions they do not. -/
instance (priority := low) noHollow (V : Type) : Hollow V := ⟨False⟩

variable {V : Type} [Hollow V]

theorem ShapeOk.resolve {ty : Types V} {s : Shape} (h : ShapeOk ty s) : ShapeOk ty s.resolve := by
  refine ⟨by rw [resolve_length]; exact h.rank, resolve_nonNeg.2 h.nonNeg, ?_⟩
  rcases h.pos with hp | hp
  · exact Or.inl (resolve_pos.2 hp)
  · exact Or.inr fun d hd _ => resolve_strides_nonneg hp d hd

theorem bind_ok {α β : Type} (a : α) (f : α → Except Fault β) : (Except.ok a >>= f) = f a := rfl

/-- Where the memory of an allocator is from. -/
def Allocator.source (al : Allocator) : Source := if al.allocated then .inline al.self else .arena al.arena

/-- The allocator with its buffer not in use. -/
def Allocator.idle (al : Allocator) : Allocator := { al with allocated := false }

theorem Allocator.idle_self {al al' : Allocator} (h : al'.idle = al.idle) : al'.self = al.self := by
  simpa [Allocator.idle] using congrArg Allocator.self h

theorem Allocator.idle_arena {al al' : Allocator} (h : al'.idle = al.idle) : al'.arena = al.arena := by
  simpa [Allocator.idle] using congrArg Allocator.arena h

theorem Allocator.idle_of {al : Allocator} (h : al.allocated = false) : al.idle = al := by
  cases al; simp only [Allocator.idle] at *; rw [h]

/-- The array owns block `b`, allocated for its shape. -/
structure Holds (w : World V) (a : Arr) (b : Nat) (blk : Block V) : Prop where
  buffer : a.buffer = some (b, 0)
  base : a.base = some (b, 0 - a.shape.flatMin)
  heap : w.heap b = some blk
  arena : blk.source = a.alloc.source
  size : blk.size = a.shape.flatExtent
  bufferSize : a.bufferSize = a.shape.flatExtent
  known : ∀ d ∈ a.shape, Known d

/-- The array owns no memory. -/
structure IsNull (a : Arr) : Prop where
  buffer : a.buffer = none
  base : a.base = none
  idle : a.alloc.allocated = false

/-- Shapes of arrays without memory. -/
def Bare (ty : Types V) (s : Shape) : Prop := s = ty.defaultShape ∨ ¬ Pos s ∨ Hollow.ok V

/-- State of an array between operations. -/
structure Good (ty : Types V) (w : World V) (a : Arr) : Prop where
  shape : ShapeOk ty a.shape
  own : (IsNull a ∧ Bare ty a.shape) ∨
    ∃ b blk, Holds w a b blk ∧ blk.live = cnt a.shape
  fits : a.buffer ≠ none →
    0 < a.shape.flatExtent ∧ a.alloc.allocated = decide (a.shape.flatExtent ≤ ty.inlineSize)

/-- The invariant for all objects but `x`, when `x` owns nothing. -/
structure InvBut (ty : Types V) (w : World V) (x : Nat) : Prop where
  good : ∀ y a, y ≠ x → w.vars y = some a → Good ty w a
  disj : ∀ y z a a' b o o', y ≠ x → z ≠ x → w.vars y = some a → w.vars z = some a' →
    a.buffer = some (b, o) → a'.buffer = some (b, o') → y = z
  cover : ∀ b, w.heap b ≠ none → ∃ y a, y ≠ x ∧ w.vars y = some a ∧ a.buffer = some (b, 0)
  fresh : ∀ b, w.nextBlock ≤ b → w.heap b = none
  freshVar : ∀ y, y ≠ x → w.nextVar ≤ y → w.vars y = none
  self : ∀ y a, y ≠ x → w.vars y = some a → a.alloc.self = y

/-- The invariant. -/
structure Inv (ty : Types V) (w : World V) : Prop where
  good : ∀ y a, w.vars y = some a → Good ty w a
  disj : ∀ y z a a' b o o', w.vars y = some a → w.vars z = some a' →
    a.buffer = some (b, o) → a'.buffer = some (b, o') → y = z
  cover : ∀ b, w.heap b ≠ none → ∃ y a, w.vars y = some a ∧ a.buffer = some (b, 0)
  fresh : ∀ b, w.nextBlock ≤ b → w.heap b = none
  freshVar : ∀ y, w.nextVar ≤ y → w.vars y = none
  self : ∀ y a, w.vars y = some a → a.alloc.self = y

theorem inv_start (ty : Types V) : Inv ty (World.start : World V) := by
  constructor <;> simp [World.start]

/-- Administrative data of a block. -/
def Block.skel (blk : Block V) : Source × Nat × (Int → Nat) := (blk.source, blk.size, blk.live)

def World.skel (w : World V) (b : Nat) : Option (Source × Nat × (Int → Nat)) := (w.heap b).map Block.skel

theorem skel_some {w : World V} {b : Nat} {blk : Block V} (h : w.heap b = some blk) :
    w.skel b = some (blk.source, blk.size, blk.live) := by simp [World.skel, h, Block.skel]

theorem Holds.mono {w w' : World V} {a : Arr} {b : Nat} {blk : Block V} (h : Holds w a b blk)
    (hs : w'.skel b = w.skel b) :
    ∃ blk', Holds w' a b blk' ∧ blk'.live = blk.live := by
  rw [skel_some h.heap] at hs
  unfold World.skel at hs
  cases hb : w'.heap b with
  | none => rw [hb] at hs; simp at hs
  | some blk' =>
    rw [hb] at hs
    simp only [Option.map_some, Option.some.injEq, Block.skel, Prod.mk.injEq] at hs
    exact ⟨blk', ⟨h.buffer, h.base, hb, hs.1.trans h.arena, hs.2.1.trans h.size, h.bufferSize, h.known⟩,
      hs.2.2⟩

theorem Good.mono {ty : Types V} {w w' : World V} {a : Arr} (h : Good ty w a)
    (hs : ∀ b, a.buffer = some (b, 0) → w'.skel b = w.skel b) : Good ty w' a := by
  refine ⟨h.shape, ?_, h.fits⟩
  rcases h.own with ho | ⟨b, blk, hh, hl⟩
  · exact Or.inl ho
  · obtain ⟨blk', h1, h2⟩ := hh.mono (hs b hh.buffer)
    exact Or.inr ⟨b, blk', h1, h2.trans hl⟩

/-- The block of a good array is in use. -/
theorem Good.heap_ne {ty : Types V} {w : World V} {a : Arr} (h : Good ty w a) {b : Nat} {o : Int}
    (hb : a.buffer = some (b, o)) : w.heap b ≠ none ∧ o = 0 := by
  rcases h.own with ⟨ho, _⟩ | ⟨b', blk, hh, hl⟩
  · rw [ho.buffer] at hb; simp at hb
  · rw [hh.buffer] at hb
    simp only [Option.some.injEq, Prod.mk.injEq] at hb
    rw [← hb.1, hh.heap]; simp [hb.2]

/-- Giving `x` a new state. -/
theorem InvBut.finish {ty : Types V} {w w' : World V} {x : Nat} (hI : InvBut ty w x)
    (hv : ∀ y, y ≠ x → w'.vars y = w.vars y)
    (hnv : ∀ y, y ≠ x → w'.nextVar ≤ y → w.nextVar ≤ y)
    (hx : w'.vars x ≠ none → x < w'.nextVar)
    (hnb : w.nextBlock ≤ w'.nextBlock)
    (hs : ∀ c, w.heap c ≠ none → w'.skel c = w.skel c)
    (hg : ∀ a, w'.vars x = some a → Good ty w' a) (hse : ∀ a, w'.vars x = some a → a.alloc.self = x)
    (hb : ∀ a c o, w'.vars x = some a → a.buffer = some (c, o) → w.heap c = none ∧ c < w'.nextBlock)
    (hc : ∀ c, w'.heap c ≠ none → w.heap c ≠ none ∨
      ∃ a, w'.vars x = some a ∧ a.buffer = some (c, 0)) : Inv ty w' := by
  have hgood : ∀ y a, w'.vars y = some a → Good ty w' a := by
    intro y a ha
    by_cases hy : y = x
    · subst hy; exact hg a ha
    · rw [hv y hy] at ha
      have h := hI.good y a hy ha
      exact h.mono fun b hbuf => hs b (h.heap_ne hbuf).1
  constructor
  · exact hgood
  · intro y z a a' b o o' hy hz hba hba'
    by_cases hyx : y = x <;> by_cases hzx : z = x
    · rw [hyx, hzx]
    · subst hyx
      rw [hv z hzx] at hz
      have := hb a b o hy hba
      exact absurd this.1 ((hI.good z a' hzx hz).heap_ne hba').1
    · subst hzx
      rw [hv y hyx] at hy
      have := hb a' b o' hz hba'
      exact absurd this.1 ((hI.good y a hyx hy).heap_ne hba).1
    · rw [hv y hyx] at hy
      rw [hv z hzx] at hz
      exact hI.disj y z a a' b o o' hyx hzx hy hz hba hba'
  · intro b hbn
    rcases hc b hbn with h | ⟨a, ha, hba⟩
    · obtain ⟨y, a, hy, h1, h2⟩ := hI.cover b h
      exact ⟨y, a, by rw [hv y hy]; exact h1, h2⟩
    · exact ⟨x, a, ha, hba⟩
  · intro b hbn
    by_contra hne
    rcases hc b hne with h | ⟨a, ha, hba⟩
    · exact h (hI.fresh b (by omega))
    · have := (hb a b 0 ha hba).2
      omega
  · intro y hy
    by_cases hyx : y = x
    · subst hyx
      by_contra hne
      have := hx hne
      omega
    · rw [hv y hyx]; exact hI.freshVar y hyx (hnv y hyx hy)
  · intro y a ha
    by_cases hyx : y = x
    · subst hyx; exact hse a ha
    · rw [hv y hyx] at ha; exact hI.self y a hyx ha

theorem Inv.but_new {ty : Types V} {w : World V} (hI : Inv ty w) {x : Nat}
    (hx : ∀ a, w.vars x = some a → a.buffer = none) : InvBut ty w x := by
  refine ⟨fun y a _ => hI.good y a, fun y z a a' b o o' _ _ => hI.disj y z a a' b o o', ?_, hI.fresh,
    fun y _ => hI.freshVar y, fun y a _ => hI.self y a⟩
  intro b hb
  obtain ⟨y, a, h1, h2⟩ := hI.cover b hb
  refine ⟨y, a, ?_, h1, h2⟩
  rintro rfl
  rw [hx a h1] at h2
  simp at h2

/-- Removing the block of `x`. -/
theorem Inv.but_block {ty : Types V} {w : World V} (hI : Inv ty w) {x : Nat} {a : Arr} {b : Nat}
    {blk : Block V} (ha : w.vars x = some a) (hh : Holds w a b blk) :
    InvBut ty (w.setBlock b none) x := by
  constructor
  · intro y a' hy ha'
    refine (hI.good y a' ha').mono fun c hc => ?_
    have : c ≠ b := by
      rintro rfl
      exact hy (hI.disj y x a' a c 0 0 ha' ha hc hh.buffer)
    simp [World.skel, setBlock_heap, this]
  · intro y z a1 a2 c o o' _ _
    exact hI.disj y z a1 a2 c o o'
  · intro c hc
    rw [setBlock_heap] at hc
    split at hc
    · simp at hc
    · rename_i hcb
      obtain ⟨y, a', h1, h2⟩ := hI.cover c hc
      refine ⟨y, a', ?_, h1, h2⟩
      rintro rfl
      rw [ha] at h1
      simp only [Option.some.injEq] at h1
      subst h1
      rw [hh.buffer] at h2
      simp only [Option.some.injEq, Prod.mk.injEq, and_true] at h2
      exact hcb h2.symm
  · intro c hc
    rw [setBlock_heap]
    split
    · rfl
    · exact hI.fresh c hc
  · intro y _
    exact hI.freshVar y
  · intro y a' _
    exact hI.self y a'

theorem get_ok {w : World V} {x : Nat} {a : Arr} (h : w.vars x = some a) : w.get x = .ok a := by
  unfold World.get; rw [h]

theorem setVar_vars (w : World V) (x : Nat) (a : Option Arr) (y : Nat) :
    (w.setVar x a).vars y = if y = x then a else w.vars y := rfl

@[simp] theorem setVar_heap (w : World V) (x : Nat) (a : Option Arr) :
    (w.setVar x a).heap = w.heap := rfl

@[simp] theorem setVar_self (w : World V) (x : Nat) (a : Option Arr) :
    (w.setVar x a).vars x = a := by simp [setVar_vars]

theorem check_ok {f : Fault} {b : Bool} (h : b = true) (w : World V) : check f b w = .ok w := by
  simp [check, h]

theorem assert_ok {ty : Types V} {b : Bool} (h : ty.debug = true → b = true) (w : World V) :
    assert ty b w = .ok w := by
  unfold assert
  apply check_ok
  cases hd : ty.debug <;> simp_all

/-! ### Private members -/

theorem destroy_holds (ty : Types V) {w : World V} {x : Nat} {a : Arr} {b : Nat} {blk : Block V}
    (ha : w.vars x = some a) (hh : Holds w a b blk) (hn : NonNeg a.shape) (hl : blk.live = cnt a.shape) :
    ∃ w', destroy ty x w = .ok w' ∧ SameBut (· = b) w w' ∧
      w'.heap b = some { blk with live := fun _ => 0 } := by
  obtain ⟨w', e, s, _, h⟩ := destroy_loop b (a.shape.forEachValue (some (0 - a.shape.flatMin))) w blk
    hh.heap (by
      intro o ho
      obtain ⟨i, hi, rfl⟩ := (trace_mem hn).1 ho
      rw [hh.size]; exact elem_range hi) (by
      intro o; rw [trace_count hn, hl])
  refine ⟨w', ?_, s, ?_⟩
  · unfold destroy
    rw [get_ok ha]
    show (assert ty _ w >>= fun w => _) = _
    rw [assert_ok (by simp [hh.base])]
    show (match a.base with
      | none => _
      | some (b, o) => _) = _
    rw [hh.base]; exact e
  · rw [h]
    congr 1
    simp only [Block.mk.injEq, true_and, and_true]
    funext o
    rw [trace_count hn, hl]; omega

theorem destroy_null (ty : Types V) {w : World V} {x : Nat} {a : Arr}
    (ha : w.vars x = some a) (hb : a.base = none) (he : ty.debug = true → a.shape.empty = true) :
    destroy ty x w = .ok w := by
  unfold destroy
  rw [get_ok ha]
  show (assert ty _ w >>= fun w => _) = _
  rw [assert_ok (by simpa [hb] using he)]
  show (match a.base with
    | none => _
    | some (b, o) => _) = _
  rw [hb]
  apply assert_ok
  intro hd
  simp [Shape.forEachValueInOrderAssert, optimizeShape_empty, he hd]

theorem construct_holds (ty : Types V) {w : World V} {x : Nat} {a : Arr} {b : Nat} {blk : Block V}
    (ha : w.vars x = some a) (hh : Holds w a b blk) (hn : NonNeg a.shape) (hl : blk.live = fun _ => 0)
    (k : Call) (v : V) :
    ∃ w' val, construct ty x k v w = .ok w' ∧ SameBut (· = b) w w' ∧
      w'.heap b = some { blk with live := cnt a.shape, val := val } ∧
      ∀ i, InBox a.shape i → val (0 - a.shape.flatMin + offsetOf a.shape i) = v := by
  obtain ⟨w', e, s, _, h⟩ := construct_loop b k v (a.shape.forEachValue (some (0 - a.shape.flatMin))) w blk
    hh.heap (by
      intro o ho
      obtain ⟨i, hi, rfl⟩ := (trace_mem hn).1 ho
      rw [hh.size]; exact elem_range hi)
  refine ⟨w', fun p => if p ∈ a.shape.forEachValue (some (0 - a.shape.flatMin)) then v else blk.val p,
    ?_, s, ?_, ?_⟩
  · unfold construct
    rw [get_ok ha]
    show (assert ty _ w >>= fun w => _) = _
    rw [assert_ok (by simp [hh.base])]
    show (match a.base with
      | none => _
      | some (b, o) => _) = _
    rw [hh.base]; exact e
  · rw [h]
    congr 1
    simp only [Block.mk.injEq, true_and]
    refine ⟨?_, trivial⟩
    funext o
    rw [trace_count hn, hl]; simp
  · intro i hi
    simp only
    rw [if_pos ((trace_mem hn).2 ⟨i, hi, rfl⟩)]

theorem construct_null (ty : Types V) {w : World V} {x : Nat} {a : Arr}
    (ha : w.vars x = some a) (hb : a.base = none) (he : ty.debug = true → a.shape.empty = true) (k : Call) (v : V) :
    construct ty x k v w = .ok w := by
  unfold construct
  rw [get_ok ha]
  show (assert ty _ w >>= fun w => _) = _
  rw [assert_ok (by simpa [hb] using he)]
  show (match a.base with
    | none => _
    | some (b, o) => _) = _
  rw [hb]
  apply assert_ok
  intro hd
  simp [Shape.forEachValueInOrderAssert, optimizeShape_empty, he hd]

/-- The pairs of elements visited by `copy_construct` and `move_construct`. -/
theorem pair_trace {s : Shape} (hn : NonNeg s) :
    (copyForEachValue s (some (0 - s.flatMin)) s (some (0 - s.flatMin))).Perm
      ((boxList s).map fun i => (0 - s.flatMin + offsetOf s i, 0 - s.flatMin + offsetOf s i)) :=
  copyForEachValue_perm rfl hn _ _

theorem pair_mem {s : Shape} (hn : NonNeg s) {p : Int × Int} :
    p ∈ copyForEachValue s (some (0 - s.flatMin)) s (some (0 - s.flatMin)) ↔
      p.1 = p.2 ∧ ∃ i, InBox s i ∧ 0 - s.flatMin + offsetOf s i = p.2 := by
  rw [(pair_trace hn).mem_iff, List.mem_map]
  constructor
  · rintro ⟨i, hi, rfl⟩; exact ⟨rfl, i, mem_boxList.1 hi, rfl⟩
  · rintro ⟨h1, i, hi, h2⟩
    refine ⟨i, mem_boxList.2 hi, ?_⟩
    ext
    · rw [h1, h2]
    · exact h2

theorem pair_snd_count {s : Shape} (hn : NonNeg s) (o : Int) :
    ((copyForEachValue s (some (0 - s.flatMin)) s (some (0 - s.flatMin))).map Prod.snd).count o =
      cnt s o := by
  rw [((pair_trace hn).map Prod.snd).count_eq, List.map_map]; rfl

theorem pair_nodup {s : Shape} (hn : NonNeg s) (hi : Injective s) :
    ((copyForEachValue s (some (0 - s.flatMin)) s (some (0 - s.flatMin))).map Prod.fst).Nodup ∧
    ((copyForEachValue s (some (0 - s.flatMin)) s (some (0 - s.flatMin))).map Prod.snd).Nodup := by
  have : ((boxList s).map fun i => 0 - s.flatMin + offsetOf s i).Nodup :=
    (boxList_nodup s).map_on fun i h1 j h2 e =>
      hi i j (mem_boxList.1 h1) (mem_boxList.1 h2) (by omega)
  constructor
  · rw [((pair_trace hn).map Prod.fst).nodup_iff, List.map_map]; exact this
  · rw [((pair_trace hn).map Prod.snd).nodup_iff, List.map_map]; exact this

theorem copyConstruct_holds (ty : Types V) {w : World V} {x y : Nat} {a o : Arr} {b c : Nat}
    {blk sblk : Block V} (ha : w.vars x = some a) (ho : w.vars y = some o) (hh : Holds w a b blk)
    (hs : Holds w o c sblk) (hbc : c ≠ b) (hsh : a.shape = o.shape) (hn : NonNeg a.shape)
    (hl : blk.live = fun _ => 0) (hsl : sblk.live = cnt o.shape) :
    ∃ w' val, copyConstruct ty x y w = .ok w' ∧ SameBut (· = b) w w' ∧
      w'.heap b = some { blk with live := cnt a.shape, val := val } ∧
      ∀ i, InBox a.shape i → val (0 - a.shape.flatMin + offsetOf a.shape i) =
        sblk.val (0 - a.shape.flatMin + offsetOf a.shape i) := by
  rw [← hsh] at hsl
  obtain ⟨w', val, e, s, _, h, v1, _⟩ := copyConstruct_loop hbc
    (copyForEachValue a.shape (some (0 - a.shape.flatMin)) a.shape (some (0 - a.shape.flatMin)))
    w sblk blk hs.heap hh.heap (by
      intro p hp
      obtain ⟨h1, i, hi, h2⟩ := (pair_mem hn).1 hp
      rw [hs.size, ← hsh, h1, ← h2]; exact elem_range hi) (by
      intro p hp
      obtain ⟨h1, h2⟩ := (pair_mem hn).1 hp
      rw [hsl, h1, cnt_pos_iff]; exact h2) (by
      intro p hp
      obtain ⟨h1, i, hi, h2⟩ := (pair_mem hn).1 hp
      rw [hh.size, ← h2]; exact elem_range hi)
  refine ⟨w', val, ?_, s, ?_, ?_⟩
  · unfold copyConstruct
    rw [get_ok ha]
    show (w.get y >>= fun o => _) = _
    rw [get_ok ho]
    show (assert ty _ w >>= fun w => _) = _
    rw [assert_ok (by simp [hh.base, hsh])]
    show forEachPair ty o.shape o.base a.shape a.base copyConstructAt w = _
    unfold forEachPair
    rw [hh.base, hs.base, ← hsh]
    exact e
  · rw [h]
    congr 1
    simp only [Block.mk.injEq, true_and, and_true]
    funext q
    rw [pair_snd_count hn, hl]; simp
  · intro i hi
    obtain ⟨p, hp, h1, h2⟩ := v1 _ (List.mem_map.2 ⟨(_, _), (pair_mem hn).2 ⟨rfl, i, hi, rfl⟩, rfl⟩)
    rw [h2, ((pair_mem hn).1 hp).1, h1]

theorem forEachPair_null (ty : Types V) {w : World V} {s d : Shape} {p q : Ptr}
    (f : Nat → Nat → Int × Int → World V → Except Fault (World V))
    (hp : p = none ∨ q = none) (hl : List.length s = List.length d)
    (he : ty.debug = true → d.empty = true) : forEachPair ty s p d q f w = .ok w := by
  unfold forEachPair
  split
  · simp at hp
  · apply assert_ok
    intro hd
    rw [optimizeCopyShapes_empty hl]; exact he hd

/-- Copying or moving between arrays without elements, at least one of which has no memory. -/
theorem copyConstruct_null (ty : Types V) {w : World V} {x y : Nat} {a o : Arr}
    (ha : w.vars x = some a) (ho : w.vars y = some o) (hb : a.base = none ∨ o.base = none)
    (hl : List.length o.shape = List.length a.shape)
    (he : ty.debug = true → a.shape.empty = true) (hsh : ty.debug = true → a.shape = o.shape) :
    copyConstruct ty x y w = .ok w := by
  unfold copyConstruct
  rw [get_ok ha]
  show (w.get y >>= fun o => _) = _
  rw [get_ok ho]
  show (assert ty _ w >>= fun w => _) = _
  rw [assert_ok (fun hd => by rw [he hd, hsh hd]; simp)]
  exact forEachPair_null ty _ hb.symm hl he

theorem moveConstruct_null (ty : Types V) {w : World V} {x y : Nat} {a o : Arr}
    (ha : w.vars x = some a) (ho : w.vars y = some o) (hb : a.base = none ∨ o.base = none)
    (hl : List.length o.shape = List.length a.shape)
    (he : ty.debug = true → a.shape.empty = true) (hsh : ty.debug = true → a.shape = o.shape) :
    moveConstruct ty x y w = .ok w := by
  unfold moveConstruct
  rw [get_ok ha]
  show (w.get y >>= fun o => _) = _
  rw [get_ok ho]
  show (assert ty _ w >>= fun w => _) = _
  rw [assert_ok (fun hd => by rw [he hd, hsh hd]; simp)]
  exact forEachPair_null ty _ hb.symm hl he

theorem moveConstruct_holds (ty : Types V) {w : World V} {x y : Nat} {a o : Arr} {b c : Nat}
    {blk sblk : Block V} (ha : w.vars x = some a) (ho : w.vars y = some o) (hh : Holds w a b blk)
    (hs : Holds w o c sblk) (hbc : c ≠ b) (hsh : a.shape = o.shape) (hn : NonNeg a.shape)
    (hl : blk.live = fun _ => 0) (hsl : sblk.live = cnt o.shape) :
    ∃ w' vs vd, moveConstruct ty x y w = .ok w' ∧ SameBut (fun k => k = c ∨ k = b) w w' ∧
      w'.heap b = some { blk with live := cnt a.shape, val := vd } ∧
      w'.heap c = some { sblk with val := vs } ∧
      (Injective a.shape → ∀ i, InBox a.shape i → vd (0 - a.shape.flatMin + offsetOf a.shape i) =
        sblk.val (0 - a.shape.flatMin + offsetOf a.shape i) ∧
        vs (0 - a.shape.flatMin + offsetOf a.shape i) =
          ty.moved (sblk.val (0 - a.shape.flatMin + offsetOf a.shape i))) := by
  rw [← hsh] at hsl
  obtain ⟨w', vs, vd, e, s, _, h1, h2, v1, _⟩ := moveConstruct_loop ty hbc
    (copyForEachValue a.shape (some (0 - a.shape.flatMin)) a.shape (some (0 - a.shape.flatMin)))
    w sblk blk hs.heap hh.heap (by
      intro p hp
      obtain ⟨h1, i, hi, h2⟩ := (pair_mem hn).1 hp
      rw [hs.size, ← hsh, h1, ← h2]; exact elem_range hi) (by
      intro p hp
      obtain ⟨h1, h2⟩ := (pair_mem hn).1 hp
      rw [hsl, h1, cnt_pos_iff]; exact h2) (by
      intro p hp
      obtain ⟨h1, i, hi, h2⟩ := (pair_mem hn).1 hp
      rw [hh.size, ← h2]; exact elem_range hi)
  refine ⟨w', vs, vd, ?_, s, ?_, h1, ?_⟩
  · unfold moveConstruct
    rw [get_ok ha]
    show (w.get y >>= fun o => _) = _
    rw [get_ok ho]
    show (assert ty _ w >>= fun w => _) = _
    rw [assert_ok (by simp [hh.base, hsh])]
    show forEachPair ty o.shape o.base a.shape a.base (moveConstructAt ty) w = _
    unfold forEachPair
    rw [hh.base, hs.base, ← hsh]
    exact e
  · rw [h2]
    congr 1
    simp only [Block.mk.injEq, true_and, and_true]
    funext q
    rw [pair_snd_count hn, hl]; simp
  · intro hi i hb
    have := v1 (pair_nodup hn hi).1 (pair_nodup hn hi).2 (_, _) ((pair_mem hn).2 ⟨rfl, i, hb, rfl⟩)
    exact this

/-- `deallocate` of an array that owns memory. -/
theorem deallocate_holds (ty : Types V) {w : World V} {x : Nat} {a : Arr} {b : Nat} {blk : Block V}
    (ha : w.vars x = some a) (hh : Holds w a b blk) (hn : NonNeg a.shape) (hl : blk.live = cnt a.shape) :
    ∃ k, deallocate ty x w = .ok (({ w with calls := k }.setBlock b none).setVar x
      (some { a with alloc := a.alloc.idle, base := none, shape := ty.defaultShape, buffer := none })) := by
  obtain ⟨w', e, s, h⟩ := destroy_holds ty ha hh hn hl
  refine ⟨w'.calls, ?_⟩
  unfold deallocate
  rw [get_ok ha]
  show (if a.base.isSome = true then _ else _) = _
  rw [if_pos (by simp [hh.base])]
  show (destroy ty x w >>= _) = _
  rw [e]
  show (release ty a.alloc a.buffer a.bufferSize w' >>= _) = _
  have : release ty a.alloc a.buffer a.bufferSize w' = .ok (w'.setBlock b none, a.alloc.idle) := by
    have hfree : World.free w' b { blk with live := fun _ => 0 } = .ok (w'.setBlock b none) := by
      unfold World.free; simp
    have har := hh.arena
    unfold release
    rw [hh.buffer]
    simp only [h]
    by_cases hal : a.alloc.allocated = true
    · unfold Allocator.source at har
      rw [if_pos hal] at har
      rw [if_pos ⟨trivial, har⟩, assert_ok (fun _ => hal), bind_ok, hfree, bind_ok]; rfl
    · have hal : a.alloc.allocated = false := by simpa using hal
      unfold Allocator.source at har
      rw [if_neg (by simp [hal])] at har
      rw [if_neg (by simp [har]), if_neg (by simp [hh.size, hh.bufferSize, har]), hfree, bind_ok,
        Allocator.idle_of hal]
  rw [this]
  show Except.ok _ = _
  congr 1
  have hheap : w'.setBlock b none = { w with calls := w'.calls }.setBlock b none := by
    have h1 := s.vars
    have h2 := s.nextVar
    have h3 := s.nextBlock
    have h4 : (w'.setBlock b none).heap = (({ w with calls := w'.calls } : World V).setBlock b none).heap := by
      funext c
      simp only [setBlock_heap]
      split
      · rfl
      · rename_i hc; exact s.heap c hc
    cases w' with
    | mk a1 a2 a3 a4 a5 =>
      simp only [World.setBlock] at *
      simp_all
  rw [hheap]

theorem deallocate_null (ty : Types V) {w : World V} {x : Nat} {a : Arr}
    (ha : w.vars x = some a) (hb : a.base = none) : deallocate ty x w = .ok w := by
  unfold deallocate
  rw [get_ok ha]
  show (if a.base.isSome = true then _ else _) = _
  rw [if_neg (by simp [hb])]

/-- `allocate`: either a fresh block for the resolved shape or no memory and no elements. -/
theorem allocate_ok (ty : Types V) {w : World V} {x : Nat} {a : Arr} (ha : w.vars x = some a)
    (hn : a.buffer = none) (hal : a.alloc.allocated = false) (hs : ShapeOk ty a.shape) :
    ∃ w' a', allocate ty x w = .ok w' ∧ (∀ y, w'.vars y = if y = x then some a' else w.vars y) ∧
      w'.nextVar = w.nextVar ∧ a'.shape = a.shape.resolve ∧ a'.alloc.idle = a.alloc.idle ∧
      (a'.buffer ≠ none →
        0 < a'.shape.flatExtent ∧ a'.alloc.allocated = decide (a'.shape.flatExtent ≤ ty.inlineSize)) ∧
      (∀ c, c ≠ w.nextBlock → w'.heap c = w.heap c) ∧
      ((IsNull a' ∧ ¬ Pos a'.shape ∧ w'.heap = w.heap ∧ w'.nextBlock = w.nextBlock) ∨
       (∃ blk, Holds w' a' w.nextBlock blk ∧ blk.live = (fun _ => 0) ∧ w'.nextBlock = w.nextBlock + 1)) := by
  have e0 : allocate ty x w = (if a.shape.resolve.flatExtent > 0 then
      .ok (({ w.setBlock w.nextBlock (some ⟨(a.alloc.allocate ty.inlineSize a.shape.resolve.flatExtent).1,
          a.shape.resolve.flatExtent, fun _ => 0, fun _ => ty.junk⟩)
          with nextBlock := w.nextBlock + 1 } : World V).setVar x (some { a with
        alloc := (a.alloc.allocate ty.inlineSize a.shape.resolve.flatExtent).2,
        shape := a.shape.resolve, bufferSize := a.shape.resolve.flatExtent,
        buffer := some (w.nextBlock, 0), base := some (w.nextBlock, 0 - a.shape.resolve.flatMin) }))
      else check .null (a.shape.resolve.flatMin == 0) w >>= fun w =>
        .ok (w.setVar x (some { a with shape := a.shape.resolve, base := none }))) := by
    unfold allocate
    rw [get_ok ha]
    show (assert ty _ w >>= fun w => _) = _
    rw [assert_ok (by simp [hn])]
    rfl
  rw [e0]
  split
  · rename_i hpos
    have hal1 : (a.alloc.allocate ty.inlineSize a.shape.resolve.flatExtent).1 =
        (a.alloc.allocate ty.inlineSize a.shape.resolve.flatExtent).2.source := by
      unfold Allocator.allocate Allocator.source
      rw [hal]
      split <;> simp [hal]
    refine ⟨_, _, rfl, fun y => rfl, rfl, rfl, ?_, ?_, ?_, Or.inr
      ⟨⟨(a.alloc.allocate ty.inlineSize a.shape.resolve.flatExtent).1, a.shape.resolve.flatExtent, fun _ => 0, fun _ => ty.junk⟩,
        ⟨rfl, rfl, ?_, hal1, rfl, rfl, ?_⟩, rfl, rfl⟩⟩
    · dsimp only; unfold Allocator.allocate; split <;> rfl
    · intro _
      refine ⟨hpos, ?_⟩
      dsimp only
      unfold Allocator.allocate
      rw [hal]
      by_cases hle : a.shape.resolve.flatExtent ≤ ty.inlineSize
      · rw [if_pos (by simpa using hle)]; simp [hle]
      · rw [if_neg (by simpa using hle)]; simp [hle, hal]
    · intro c hc; simp [setBlock_heap, hc]
    · simp [setBlock_heap]
    · exact resolve_known _
  · rename_i hz
    have hz : a.shape.resolve.flatExtent = 0 := by omega
    have hnp := not_pos_of_flatExtent hz
    have hf : a.shape.resolve.flatMin = 0 := by
      rcases hs.pos with hp | hp
      · exact absurd (resolve_pos.2 hp) hnp
      · exact flatMin_of_nonneg_strides (resolve_strides_nonneg hp)
    rw [check_ok (by simp [hf])]
    exact ⟨_, _, rfl, fun y => rfl, rfl, rfl, rfl, fun h => absurd hn h, fun c hc => rfl,
      Or.inl ⟨⟨hn, rfl, hal⟩, hnp, rfl, rfl⟩⟩

end Nda
