import Verif.Props.Reinterpret
import Verif.Props.Layouts
/-
C57: arrays whose allocator is an `auto_allocator` (array.h:3110-3179).
-/
namespace Nda
open Spec
variable {V : Type}

/-- All elements of an array of shape `s` fit into `n` consecutive places. -/
def FitsIn (s : Shape) (n : Nat) : Prop :=
  ∀ i j, InBox s i → InBox s j → offsetOf s i - offsetOf s j < n

theorem fitsIn_iff {s : Shape} (hp : Pos s) (n : Nat) : FitsIn s n ↔ s.flatExtent ≤ n := by
  have he := flatExtent_pos hp
  rw [flatExtent_eq] at he ⊢
  constructor
  · intro h
    obtain ⟨i, hi, ei⟩ := exists_flatMax hp
    obtain ⟨j, hj, ej⟩ := exists_flatMin hp
    have := h i j hi hj
    rw [ei, ej] at this
    omega
  · intro h i j hi hj
    have h1 := offsetOf_bounds hi
    have h2 := offsetOf_bounds hj
    change Shape.flatMin s ≤ _ ∧ _ ≤ Shape.flatMax s at h1 h2
    omega

/-- C57: the buffer of a `small_matrix<T, Rows, Cols>` (matrix.h:55-56) has exactly as many places as its elements
need, wherever its indices start. -/
theorem C57_small_matrix (rows cols i0 j0 : Int) (hr : 1 ≤ rows) (hc : 1 ≤ cols)
    (hfit : rows * cols ≤ 9223372036854775807) (n : Nat) :
    FitsIn (Shape.resolve (shapeOfIntervals (matrixShape rows cols) [⟨i0, rows⟩, ⟨j0, cols⟩])) n ↔ rows * cols ≤ n := by
  obtain ⟨-, es, -, -⟩ := C67_matrix rows cols i0 j0 rows cols (.inl rfl) (.inl rfl) hr hc hfit
  rw [es]
  have hp : Pos [⟨i0, rows, cols⟩, ⟨j0, cols, 1⟩] := by
    intro d hd
    simp only [List.mem_cons, List.not_mem_nil, or_false] at hd
    rcases hd with rfl | rfl
    · exact hr
    · exact hc
  rw [fitsIn_iff hp]
  have hmul : cols ≤ rows * cols := by nlinarith
  have : Shape.flatExtent [⟨i0, rows, cols⟩, ⟨j0, cols, 1⟩] = (rows * cols).toNat := by
    simp only [Shape.flatExtent, Shape.flatMax, Shape.flatMin, List.map_cons, List.map_nil, Nda.sum, imax, imin]
    have c1 : (if (0 : Int) < cols then cols else 0) = cols := if_pos (by omega)
    have c2 : (if cols < 0 then cols else (0 : Int)) = 0 := if_neg (by omega)
    have c3 : (if (0 : Int) < 1 then (1 : Int) else 0) = 1 := rfl
    have c4 : (if (1 : Int) < 0 then (1 : Int) else 0) = 0 := rfl
    rw [c1, c2, c3, c4]
    have e : (rows - 1) * cols = rows * cols - cols := by ring
    simp only [mul_zero, mul_one, e]
    split <;> omega
  rw [this]
  omega

/-- C57: the buffer of a `small_vector<T, Length>` (matrix.h:57-58) has exactly as many places as its elements need. -/
theorem C57_small_vector (length i0 : Int) (hl : 1 ≤ length) (n : Nat) :
    FitsIn (Shape.resolve (shapeOfIntervals (vectorShape length) [⟨i0, length⟩])) n ↔ length ≤ n := by
  obtain ⟨-, es, -⟩ := C67_vector length i0 length (.inl rfl)
  rw [es]
  have hp : Pos [⟨i0, length, 1⟩] := by
    intro d hd
    obtain rfl := List.mem_singleton.1 hd
    exact hl
  rw [fitsIn_iff hp]
  have : Shape.flatExtent [⟨i0, length, 1⟩] = length.toNat := by
    simp only [Shape.flatExtent, Shape.flatMax, Shape.flatMin, List.map_cons, List.map_nil, Nda.sum, imax, imin]
    have c3 : (if (0 : Int) < 1 then (1 : Int) else 0) = 1 := rfl
    have c4 : (if (1 : Int) < 0 then (1 : Int) else 0) = 0 := rfl
    rw [c3, c4]
    simp only [mul_zero, mul_one]
    split <;> omega
  rw [this]
  omega

/-- A matrix of 3 by 4 elements needs 12 places. -/
example : FitsIn (Shape.resolve (shapeOfIntervals (matrixShape 3 4) [⟨0, 3⟩, ⟨0, 4⟩])) 12 ∧
    ¬ FitsIn (Shape.resolve (shapeOfIntervals (matrixShape 3 4) [⟨0, 3⟩, ⟨0, 4⟩])) 11 := by
  rw [C57_small_matrix 3 4 0 0 (by omega) (by omega) (by omega), C57_small_matrix 3 4 0 0 (by omega) (by omega) (by omega)]
  decide

/-- C57: an array with elements has them in the buffer of its own allocator exactly if they fit into the
`N` places of the buffer, and otherwise in memory of the arena of the allocator. -/
theorem C57_where (ty : Types V) (hdef : TypesOk ty) (w : World V) (hw : Reachable ty w)
    (x : Nat) (a : Arr) (ha : w.vars x = some a) (hn : NotHollow a) (hp : Pos a.shape) :
    ∃ b p blk, a.base = some (b, p) ∧ w.heap b = some blk ∧
      (FitsIn a.shape ty.inlineSize → blk.source = .inline x) ∧
      (¬ FitsIn a.shape ty.inlineSize → blk.source = .arena a.alloc.arena) := by
  have hI := hw.inv hdef
  have hg := hI.good x a ha
  rcases hg.own with ⟨ho, _⟩ | ⟨b, blk, hh, _⟩
  · exact absurd hp (hn ho.base)
  · obtain ⟨he, hf⟩ := hg.fits (by rw [hh.buffer]; simp)
    refine ⟨b, _, blk, hh.base, hh.heap, fun h => ?_, fun h => ?_⟩ <;> rw [fitsIn_iff hp] at h <;>
      rw [hh.arena, Allocator.source, hf]
    · rw [if_pos (by simpa using h), hI.self x a ha]
    · rw [if_neg (by simpa using h)]

/-- C57: a buffer holds the elements of at most one array: that of the allocator the buffer is in. -/
theorem C57_exclusive (ty : Types V) (hdef : TypesOk ty) (w : World V) (hw : Reachable ty w)
    (b : Nat) (blk : Block V) (x : Nat) (hb : w.heap b = some blk) (hx : blk.source = .inline x) :
    (∃ a, w.vars x = some a ∧ a.buffer = some (b, 0) ∧ a.bufferSize = blk.size ∧ blk.size ≤ ty.inlineSize) ∧
    ∀ b' blk', w.heap b' = some blk' → blk'.source = .inline x → b' = b := by
  have hI := hw.inv hdef
  have key : ∀ {b blk}, w.heap b = some blk → blk.source = .inline x →
      ∃ a, w.vars x = some a ∧ a.buffer = some (b, 0) ∧ a.bufferSize = blk.size ∧ blk.size ≤ ty.inlineSize := by
    intro b blk hb hx
    obtain ⟨y, a, p, hy, hbuf, _, hsz, hs, _, _⟩ := hI.balanced.owner b blk hb
    rw [hx] at hs
    by_cases hal : a.alloc.allocated = true
    · rw [if_pos hal] at hs
      obtain rfl : x = y := by simpa using hs
      refine ⟨a, hy, hbuf, hsz, ?_⟩
      have hg := hI.good x a hy
      have hf := (hg.fits (by rw [hbuf]; simp)).2
      rw [hal] at hf
      rcases hg.own with ⟨ho, _⟩ | ⟨b', blk', hh, _⟩
      · rw [ho.buffer] at hbuf; simp at hbuf
      · have := hh.bufferSize
        simp only [true_eq_decide_iff] at hf
        omega
    · rw [if_neg hal] at hs
      simp at hs
  refine ⟨key hb hx, fun b' blk' hb' hx' => ?_⟩
  obtain ⟨a, h1, h2, _⟩ := key hb hx
  obtain ⟨a', h1', h2', _⟩ := key hb' hx'
  rw [h1] at h1'
  simp only [Option.some.injEq] at h1'
  rw [← h1', h2] at h2'
  simpa using h2'.symm

/-- C57: while all arrays fit, nothing is allocated from an arena. -/
theorem C57_no_heap (ty : Types V) (hdef : TypesOk ty) (w : World V) (hw : Reachable ty w)
    (hfit : ∀ x a, w.vars x = some a → a.buffer ≠ none → a.bufferSize ≤ ty.inlineSize)
    (b : Nat) (blk : Block V) (hb : w.heap b = some blk) : ∃ x, blk.source = .inline x := by
  have hI := hw.inv hdef
  obtain ⟨x, a, p, hx, hbuf, _, hsz, hs, _, _⟩ := hI.balanced.owner b blk hb
  have hg := hI.good x a hx
  obtain ⟨he, hf⟩ := hg.fits (by rw [hbuf]; simp)
  rcases hg.own with ⟨ho, _⟩ | ⟨b', blk', hh, _⟩
  · rw [ho.buffer] at hbuf; simp at hbuf
  · have h1 := hfit x a hx (by rw [hbuf]; simp)
    have h2 := hh.bufferSize
    rw [hf, if_pos (by simp only [decide_eq_true_eq]; omega)] at hs
    exact ⟨x, hs⟩

/-- C57: moving an array that is in the buffer of its allocator, to a new array or to one that has other
elements, moves its elements to the buffer of the other: no memory changes hands, so that the source still
has its elements, which have been moved from. -/
theorem C57_move (ty : Types V) (hdef : TypesOk ty) (w : World V) (hw : Reachable ty w)
    (y : Nat) (o : Arr) (ho : w.vars y = some o) (hn : NotHollow o) (hp : Pos o.shape) (hinj : Injective o.shape)
    (hfit : FitsIn o.shape ty.inlineSize) (c : Cmd V) (x : Nat)
    (hc : c = .newMove y ∧ x = w.nextVar ∨ (∃ al, c = .newMoveAlloc y al ∧ x = w.nextVar) ∨
      c = .moveAssign x y ∧ x ≠ y ∧ w.vars x ≠ none) :
    ∃ w' a' b p q blk, exec ty c w = .ok w' ∧ w'.vars y = some o ∧ w'.vars x = some a' ∧
      a'.shape = o.shape ∧ a'.base = some (b, p) ∧ w'.heap b = some blk ∧ blk.source = .inline x ∧
      o.base = some q ∧ q.1 ≠ b ∧
      ∀ i, InBox o.shape i → elem w' x i = elem w y i ∧ elem w' y i = (elem w y i).map ty.moved := by
  have hI := hw.inv hdef
  have hal : o.alloc.allocated = true := by
    have hg := hI.good y o ho
    rcases hg.own with ⟨h, _⟩ | ⟨b, blk, hh, _⟩
    · exact absurd hp (hn h.base)
    · rw [(hg.fits (by rw [hh.buffer]; simp)).2]
      simpa using (fitsIn_iff hp _).1 hfit
  have hpm : ty.propagateMove = false := by
    rcases hdef.inline with h | h
    · obtain ⟨i, hi, _⟩ := exists_flatMin hp
      have := hfit i i hi hi
      omega
    · exact h.1
  have hb : o.base ≠ none := fun h => hn h hp
  have hsrc : SrcOk ty o := fun h => absurd h hb
  have hxy : x ≠ y := by
    have hlt := hI.lt ho
    rcases hc with ⟨_, rfl⟩ | ⟨_, _, rfl⟩ | ⟨_, h, _⟩
    · omega
    · omega
    · exact h
  have hex : ∀ w', exec ty c w = .ok w' → Reachable ty w' := by
    intro w' e
    refine hw.exec ?_ e
    rcases hc with ⟨rfl, _⟩ | ⟨al, rfl, _⟩ | ⟨rfl, _, hx⟩
    · exact with_iff.2 ⟨o, ho, .inr hsrc⟩
    · exact with_iff.2 ⟨o, ho, .inr hsrc⟩
    · obtain ⟨a, ha⟩ := Option.ne_none_iff_exists'.1 hx
      exact with_iff.2 ⟨a, ha, with_iff.2 ⟨o, ho, fun _ h => absurd h hb, fun _ _ => hsrc⟩⟩
  have hc' : (c = .newMove y ∧ ty.propagateMove = false ∧
        (o.alloc.allocated = true ∨ ty.defaultAlloc ≠ o.alloc.arena) ∧ x = w.nextVar) ∨
      (∃ al, c = .newMoveAlloc y al ∧ (o.alloc.allocated = true ∨ al ≠ o.alloc.arena) ∧ x = w.nextVar) ∨
      (∃ a, c = .moveAssign x y ∧ w.vars x = some a ∧ ty.propagateMove = false ∧
        (a.alloc.allocated = true ∨ o.alloc.allocated = true ∨ a.alloc.arena ≠ o.alloc.arena) ∧
        a.base ≠ o.base) := by
    rcases hc with ⟨rfl, rfl⟩ | ⟨al, rfl, rfl⟩ | ⟨rfl, _, hx⟩
    · exact .inl ⟨rfl, hpm, .inl hal, rfl⟩
    · exact .inr (.inl ⟨al, rfl, .inl hal, rfl⟩)
    · obtain ⟨a, ha⟩ := Option.ne_none_iff_exists'.1 hx
      refine .inr (.inr ⟨a, rfl, ha, hpm, .inr (.inl hal), fun e => ?_⟩)
      obtain ⟨⟨b, q⟩, hq⟩ := Option.ne_none_iff_exists'.1 hb
      exact hxy (hI.disj x y a o b 0 0 ha ho ((hI.good x a ha).base_block (e.trans hq))
        ((hI.good y o ho).base_block hq))
  obtain ⟨w', a', e, hy, hx, hs, hd, hv⟩ := C33_move_elements ty hdef w hw y o ho hsrc hinj c x hc'
  have hs := hs hb
  have hn' : NotHollow a' := by
    intro h _
    obtain ⟨i, hi, _⟩ := exists_flatMin hp
    have h1 := (hv i hi).1
    obtain ⟨v, h2⟩ := (hI.good y o ho).elem_ok ho hb hi
    rw [h2] at h1
    unfold elem World.get at h1
    rw [hx] at h1
    simp [bind, Except.bind, h] at h1
  obtain ⟨b, p, blk, h1, h2, h3, _⟩ := C57_where ty hdef w' (hex w' e) x a' hx hn' (by rw [hs]; exact hp)
  obtain ⟨⟨b', q⟩, hq⟩ := Option.ne_none_iff_exists'.1 hb
  exact ⟨w', a', b, p, _, blk, e, hy, hx, hs, h1, h2, h3 (by rw [hs]; exact hfit), hq,
    fun e => hd b p q h1 (by rw [hq]; simpa using e), hv⟩

/-- Types of the examples with room for four elements. -/
def exampleSmall : Types Int := { exampleTypes with inlineSize := 4 }

example : TypesOk exampleSmall := by decide +kernel

/-- Where the elements of an object are after a program. -/
def memoryOf (ty : Types V) (p : List (Cmd V)) (x : Nat) : Option Source :=
  match execAll ty p World.start with
  | .ok w => w.vars x >>= fun a => a.base >>= fun q => (w.heap q.1).map Block.source
  | .error _ => none

/-- Four elements are in the buffer, six are not; with a gap between the two elements of a row, four elements
take more than four places; reshaping moves elements from one to the other. -/
example : let p : List (Cmd Int) := [.newFill [⟨1, 2, unresolved⟩, ⟨-2, 2, unresolved⟩] 7,
      .newFillAlloc [⟨0, 3, unresolved⟩, ⟨0, 2, unresolved⟩] 8 1, .newFill [⟨0, 2, 2⟩, ⟨0, 2, 1⟩] 9,
      .newFill [⟨0, 2, 2⟩, ⟨0, 2, 3⟩] 9, .newCopy 1, .reshape 4 [⟨0, 2, unresolved⟩, ⟨0, 1, unresolved⟩]]
    memoryOf exampleSmall p 0 = some (.inline 0) ∧ memoryOf exampleSmall p 1 = some (.arena 1) ∧
    memoryOf exampleSmall p 2 = some (.inline 2) ∧ memoryOf exampleSmall p 3 = some (.arena 0) ∧
    memoryOf exampleSmall p 4 = some (.inline 4) ∧ result exampleSmall p 4 [1, 0] = .ok 8 ∧
    memoryOf exampleTypes p 0 = some (.arena 0) := by decide +kernel

/-- Moving a small array and a large one; swapping a small one and a large one; the program is allowed. -/
example : let p : List (Cmd Int) := [.newFill [⟨1, 2, unresolved⟩, ⟨-2, 2, unresolved⟩] 7,
      .newFill [⟨0, 3, unresolved⟩, ⟨0, 2, unresolved⟩] 8, .newMove 0, .newMove 1, .write 0 [1, -2] 5, .swap 2 3,
      .moveAssign 2 0]
    AllowedRun exampleSmall p World.start ∧
    result exampleSmall p 2 [1, -2] = .ok 5 ∧ memoryOf exampleSmall p 2 = some (.inline 2) ∧
    result exampleSmall p 0 [2, -1] = .ok (-1) ∧ result exampleSmall p 3 [2, -1] = .ok 7 ∧
    memoryOf exampleSmall p 3 = some (.inline 3) ∧
    memoryOf exampleSmall p 1 = none ∧
    blocksLeft exampleSmall (p ++ [.delete 0, .delete 1, .delete 2, .delete 3]) 20 = some 0 := by decide +kernel

/-- `move_reinterpret_shape`, then destruction of both arrays. -/
def reinterpretThenDelete (ty : Types Int) (p : List (Cmd Int)) (newShape : Shape) : Except Fault (World Int) := do
  let w ← execAll ty p World.start
  let w ← moveReinterpretShape ty ty.defaultShape 0 newShape 0 w
  execAll ty [.delete 1, .delete 0] w

/-- C57 is false for `move_reinterpret_shape`, which moves pointers also if the allocators differ: in debug
builds it fails the assertion for the allocators, and without assertions the result refers to the buffer in
`from`: destroying the result gives the buffer to the arena. -/
theorem C57_reinterpret_counterexample : ∃ (ty : Types Int) (p : List (Cmd Int)) (newShape : Shape),
    TypesOk ty ∧ AllowedRun ty p World.start ∧ newShape.isSubsetOf [⟨0, 4, 1⟩] 0 = true ∧
    ty.debug = false ∧
    memoryOf ty p 0 = some (.inline 0) ∧
    (match reinterpretThenDelete ty p newShape with | .ok _ => none | .error f => some f) = some .badDealloc ∧
    (match reinterpretThenDelete { ty with debug := true } p newShape with
      | .ok _ => none | .error f => some f) = some .assertion :=
  ⟨{ exampleTypes1 with inlineSize := 4, debug := false }, [.newShape [⟨0, 4, unresolved⟩]], [⟨5, 4, 1⟩],
    by decide +kernel, by decide +kernel, by decide, rfl, by decide +kernel, by decide +kernel, by decide +kernel⟩

/-- With more elements than there is room for it works. -/
example : (match reinterpretThenDelete { exampleTypes1 with inlineSize := 4 } [.newShape [⟨0, 5, unresolved⟩]]
    [⟨6, 5, 1⟩] with | .ok _ => none | .error f => some f) = none := by decide +kernel

end Nda
