import Verif.Lemmas.ArrayRun
import Verif.Props.Array
import Verif.Props.Static
/-
C55: the functions returning a new array: `make_copy`, `make_compact_copy`, `make_move`,
`make_compact_move`.
-/
namespace Nda
open Spec

variable {V : Type}

/-- C55: `make_copy` of an `array_ref` to memory of array `y`, with a new shape.  The result has the given
shape, with unknown strides chosen, and the given allocator; it has the elements of the source at the same
indices; it shares no memory with any other array; nothing else changes. -/
theorem C55_copy (ty : Types V) (hdef : TypesOk ty) (w : World V) (hw : Reachable ty w)
    (y : Nat) (o : Arr) (ho : w.vars y = some o) (src : Shape) (off : Int) (s : Shape) (al : Nat)
    (hv : ViewOk ty o src off s) :
    ∃ w' a', exec ty (.makeCopyRef y src off s al) w = .ok w' ∧ Reachable ty w' ∧
      w'.vars w.nextVar = some a' ∧ a'.shape = s.resolve ∧ a'.alloc.arena = al ∧
      (Injective s.resolve → ∀ i, InBox s i → elem w' w.nextVar i = refElem w y src off i) ∧
      (∀ z, z ≠ w.nextVar → w'.vars z = w.vars z ∧ ∀ i, elem w' z i = elem w z i) ∧
      (∀ z az, z ≠ w.nextVar → w'.vars z = some az → ∀ b p q, a'.base = some (b, p) →
        az.base ≠ some (b, q)) := by
  have hI := hw.inv hdef
  obtain ⟨w', a', e, h⟩ := makeFrom_ok true al hI ho hv
  refine ⟨w', a', e, ?_, h.var, h.shape, h.alloc, fun hi => h.vals hi (Or.inl rfl), ?_, ?_⟩
  · obtain ⟨p, hp, hr⟩ := hw
    refine ⟨p ++ [.makeCopyRef y src off s al], ?_, ?_⟩
    · have : ∀ (p : List (Cmd V)) (w0 : World V), AllowedRun ty p w0 → execAll ty p w0 = .ok w →
          AllowedRun ty (p ++ [.makeCopyRef y src off s al]) w0 := by
        intro p
        induction p with
        | nil =>
          intro w0 _ h0
          have : w0 = w := by injection h0
          subst this
          refine ⟨with_iff.2 ⟨o, ho, hv⟩, ?_⟩
          show (match makeFrom true ty y src off s al w0 with
            | .ok w' => AllowedRun ty [] w' | .error _ => True)
          rw [e]; trivial
        | cons c p ih =>
          intro w0 ha h0
          obtain ⟨h1, h2⟩ := ha
          refine ⟨h1, ?_⟩
          rw [execAll_cons] at h0
          cases he : exec ty c w0 with
          | error f => trivial
          | ok w1 =>
            rw [he] at h0 h2
            exact ih w1 h2 h0
      exact this p _ hp hr
    · have : ∀ (p : List (Cmd V)) (w0 : World V), execAll ty p w0 = .ok w →
          execAll ty (p ++ [.makeCopyRef y src off s al]) w0 = .ok w' := by
        intro p
        induction p with
        | nil =>
          intro w0 h0
          have : w0 = w := by injection h0
          subst this
          show (makeFrom true ty y src off s al w0 >>= execAll ty []) = _
          rw [e]; rfl
        | cons c p ih =>
          intro w0 h0
          rw [execAll_cons] at h0
          rw [List.cons_append, execAll_cons]
          cases he : exec ty c w0 with
          | error f => rw [he] at h0; simp [bind, Except.bind] at h0
          | ok w1 =>
            rw [he] at h0
            exact ih w1 h0
      exact this p _ hr
  · intro z hz
    have hz' : ¬ (z = w.nextVar ∨ (true = false ∧ z = y)) := by simpa using hz
    exact ⟨h.step.vars z hz', fun i => h.step.elem hI hz' i⟩
  · intro z az hz hzv b p q hp hq
    exact hz (h.inv.disj z w.nextVar az a' b 0 0 hzv h.var ((h.inv.good z az hzv).base_block hq)
      ((h.inv.good _ a' h.var).base_block hp))

theorem ViewOk.self {ty : Types V} {w : World V} (hI : Inv ty w) {y : Nat} {o : Arr} (ho : w.vars y = some o)
    (hn : NotHollow o) {s : Shape} (hs : ShapeOk ty s) (hsub : ∀ i, InBox s i → InBox o.shape i) :
    ViewOk ty o o.shape 0 s := by
  refine ⟨hs, (hI.good y o ho).shape.rank.trans hs.rank.symm, (hI.good y o ho).shape.nonNeg, ?_⟩
  intro i hi
  have hi' := hsub i hi
  exact ⟨hi', fun hb => hn hb (pos_of_inBox hi'), i, hi', by omega⟩

theorem refElem_self {w : World V} (y : Nat) {o : Arr} (ho : w.vars y = some o) (i : Index) :
    refElem w y o.shape 0 i = elem w y i := by
  unfold refElem elem
  rw [get_ok ho, bind_ok, bind_ok]
  simp only [add_zero]
  cases o.base <;> rfl

/-- C55: `make_copy(array, shape, alloc)`, for a shape whose indices are indices of the array. -/
theorem C55_copy_array (ty : Types V) (hdef : TypesOk ty) (w : World V) (hw : Reachable ty w)
    (y : Nat) (o : Arr) (ho : w.vars y = some o) (hn : NotHollow o) (f : Index → V)
    (hf : Contents w y o.shape f) (s : Shape) (al : Nat) (hs : ShapeOk ty s)
    (hsub : ∀ i, InBox s i → InBox o.shape i) (hinj : Injective s.resolve) :
    ∃ w' a', exec ty (.makeCopy y s al) w = .ok w' ∧ w'.vars w.nextVar = some a' ∧ a'.alloc.arena = al ∧
      Contents w' w.nextVar s.resolve f ∧ Contents w' y o.shape f := by
  have hI := hw.inv hdef
  obtain ⟨w', a', e, h⟩ := makeFrom_ok true al hI ho (ViewOk.self hI ho hn hs hsub)
  have hz : ¬ (y = w.nextVar ∨ (true = false ∧ y = y)) := by
    have := hI.lt ho
    simp; omega
  refine ⟨w', a', (makeFromArray_eq ho s al).trans e, h.var, h.alloc, ⟨⟨a', h.var, h.shape⟩, ?_⟩,
    ⟨o, h.source, rfl⟩, ?_⟩
  · intro i hi
    have hi := (inBox_resolve s i).1 hi
    rw [h.vals hinj (Or.inl rfl) i hi, refElem_self y ho]
    exact hf.2 i (hsub i hi)
  · intro i hi
    rw [h.step.elem hI hz]
    exact hf.2 i hi

/-- C55: `make_copy(array, alloc)` is an array with the same shape (if the array has memory) and the same
elements. -/
theorem C55_copy_same (ty : Types V) (hdef : TypesOk ty) (w : World V) (hw : Reachable ty w)
    (y : Nat) (o : Arr) (ho : w.vars y = some o) (hb : o.base ≠ none) (f : Index → V)
    (hf : Contents w y o.shape f) (al : Nat) (hinj : Injective o.shape) :
    ∃ w' a', makeCopySame ty y al w = .ok w' ∧ w'.vars w.nextVar = some a' ∧ a'.alloc.arena = al ∧
      Contents w' w.nextVar o.shape f ∧ Contents w' y o.shape f := by
  have hI := hw.inv hdef
  have hg := hI.good y o ho
  have hres : o.shape.resolve = o.shape := resolve_of_known (hg.known hb)
  obtain ⟨w', a', e, h1, h2, h3, h4⟩ := C55_copy_array ty hdef w hw y o ho (fun h => absurd h hb) f hf o.shape al
    hg.shape (fun _ h => h) (by rw [hres]; exact hinj)
  rw [hres] at h3
  refine ⟨w', a', ?_, h1, h2, h3, h4⟩
  rw [← e]
  unfold makeCopySame
  rw [get_ok ho, bind_ok]
  exact (makeFromArray_eq ho o.shape al).symm

/-- `make_compact` of a shape with run-time parameters. -/
theorem makeCompactDynamic_eq (s : Shape) (hpos : Pos s)
    (hfit : (List.map Dim.extent s).prod ≤ 9223372036854775807) :
    makeCompactDynamic s = (Shape.bounds s).resolve := by
  unfold makeCompactDynamic
  have hv : values (s.map fun d => (⟨⟨dynamic, dynamic, dynamic⟩, d⟩ : SDim)) = s := by
    unfold values
    rw [List.map_map]
    exact List.map_id' s
  rw [makeCompact_dynamic (by
      intro d hd
      obtain ⟨x, _, rfl⟩ := List.mem_map.1 hd
      exact ⟨fun h => absurd rfl h, fun h => absurd rfl h, fun h => absurd rfl h⟩) (by
      intro d hd
      obtain ⟨x, _, rfl⟩ := List.mem_map.1 hd
      rfl) (by rw [hv]; exact hpos) (by rw [hv]; exact hfit), hv, resolve_bounds hpos hfit]

/-- C55: `make_compact_copy` of an array with run-time shape parameters, strides in any order and possibly with
padding or (for the source only) sharing addresses: the result has the same indices and elements, and its elements occupy
memory without gaps: its offsets are `0 … size()-1`. -/
theorem C55_compact_copy (ty : Types V) (hdef : TypesOk ty) (w : World V) (hw : Reachable ty w)
    (y : Nat) (o : Arr) (ho : w.vars y = some o) (hb : o.base ≠ none) (hpos : Pos o.shape) (f : Index → V)
    (hf : Contents w y o.shape f) (al : Nat)
    (hfit : (List.map Dim.extent o.shape).prod ≤ 9223372036854775807) :
    ∃ w' a', makeCompactFrom true ty y al w = .ok w' ∧ w'.vars w.nextVar = some a' ∧ a'.alloc.arena = al ∧
      (∀ i, InBox a'.shape i ↔ InBox o.shape i) ∧
      (∀ k, (∃ i, InBox a'.shape i ∧ offsetOf a'.shape i = k) ↔ 0 ≤ k ∧ k < a'.shape.size) ∧
      Injective a'.shape ∧ (a'.bufferSize = a'.shape.size) ∧
      Contents w' w.nextVar a'.shape f ∧ Contents w' y o.shape f := by
  have hI := hw.inv hdef
  have hg := hI.good y o ho
  have heq := makeCompactDynamic_eq o.shape hpos hfit
  obtain ⟨hoff, hinj, hcomp, _⟩ := C05_dense (Shape.bounds o.shape) (bounds_pos hpos) (fun d hd => bounds_not_known hd)
    (by have := bounds_prod o.shape; exact le_of_eq_of_le this hfit)
  have hbox : ∀ i, InBox (makeCompactDynamic o.shape) i ↔ InBox o.shape i := by
    intro i
    rw [heq, inBox_resolve]
    have : ∀ (l : List Dim) (i : List Int), InBox (Shape.bounds l) i ↔ InBox l i := by
      intro l
      induction l with
      | nil => intro i; exact Iff.rfl
      | cons d l ih =>
        intro i
        cases i with
        | nil => exact Iff.rfl
        | cons a is => exact and_congr Iff.rfl (ih is)
    exact this o.shape i
  have hres : (makeCompactDynamic o.shape).resolve = makeCompactDynamic o.shape := by
    rw [heq]; exact resolve_of_known (resolve_known _)
  have hs : ShapeOk ty (makeCompactDynamic o.shape) := by
    rw [heq]
    have hp : Pos (Shape.bounds o.shape).resolve := resolve_pos.2 (bounds_pos hpos)
    refine ⟨?_, hp.nonNeg, Or.inl hp⟩
    rw [resolve_length]
    exact (by simp [Shape.bounds] : List.length (Shape.bounds o.shape) = List.length o.shape).trans hg.shape.rank
  obtain ⟨w', a', e, h1, h2, h3, h4⟩ := C55_copy_array ty hdef w hw y o ho (fun h => absurd h hb) f hf
    (makeCompactDynamic o.shape) al hs (fun i hi => (hbox i).1 hi) (by rw [hres, heq]; exact hinj)
  rw [hres] at h3
  have hsh : a'.shape = makeCompactDynamic o.shape := by
    obtain ⟨a2, ha2, hs2⟩ := h3.1
    rw [h1] at ha2
    injection ha2 with ha2
    rw [ha2]; exact hs2
  have hI' : Inv ty w' := by
    obtain ⟨w2, e2, hI2, _⟩ := exec_ok hdef hI (c := .makeCopy y (makeCompactDynamic o.shape) al)
      (with_iff.2 ⟨o, ho, ViewOk.self hI ho (fun h => absurd h hb) hs fun i hi => (hbox i).1 hi⟩)
    rw [e] at e2
    injection e2 with e2
    rw [e2]; exact hI2
  have hp' : Pos a'.shape := by
    rw [hsh, heq]; exact resolve_pos.2 (bounds_pos hpos)
  refine ⟨w', a', ?_, h1, h2, by rw [hsh]; exact hbox, by rw [hsh, heq]; exact hoff, by rw [hsh, heq]; exact hinj,
    ?_, by rw [hsh]; exact h3, h4⟩
  · rw [← e]
    unfold makeCompactFrom
    rw [get_ok ho, bind_ok]
    exact (makeFromArray_eq ho _ al).symm
  · rcases (hI'.good _ _ h1).own with ⟨hnull, hd⟩ | ⟨b, blk, hh, _⟩
    · exfalso
      have hbase : elem w' w.nextVar (a'.shape.map Dim.min) = .error .null := by
        unfold elem
        rw [get_ok h1, bind_ok, hnull.base]
      have : ∀ {t : List Dim}, Pos t → InBox t (t.map Dim.min) := by
        intro t
        induction t with
        | nil => intro _; trivial
        | cons d ds ih =>
          intro h
          obtain ⟨h1, h2⟩ := pos_cons.1 h
          exact ⟨⟨le_rfl, by omega⟩, ih h2⟩
      have h5 := h3.2 (a'.shape.map Dim.min) (by rw [← hsh]; exact this hp')
      rw [hbase] at h5
      simp at h5
    · rw [hh.bufferSize]
      have h6 : a'.shape.isCompact = true := by rw [hsh, heq]; exact hcomp
      have h7 : a'.shape.isCompact = true → a'.shape.flatExtent ≤ a'.shape.size := fun h => of_decide_eq_true h
      have h8 := h7 h6
      by_contra hne
      have h9 : a'.shape.flatExtent < a'.shape.size := by omega
      have h10 := (by rw [hsh, heq]; exact hoff : ∀ k, (∃ i, InBox a'.shape i ∧ offsetOf a'.shape i = k) ↔
        0 ≤ k ∧ k < a'.shape.size)
      obtain ⟨i0, hi0, e0⟩ := (h10 0).2 ⟨le_rfl, by omega⟩
      obtain ⟨i1, hi1, e1⟩ := (h10 (a'.shape.size - 1)).2 ⟨by omega, by omega⟩
      have r0 := elem_range hi0
      have r1 := elem_range hi1
      omega

/-- C55: `make_move` of an `array_ref` to memory of array `y`, with a new shape.  The result has the elements
of the source at the same indices; at these the array `y` has moved-from elements, and it keeps the others; nothing else changes. -/
theorem C55_move (ty : Types V) (hdef : TypesOk ty) (w : World V) (hw : Reachable ty w)
    (y : Nat) (o : Arr) (ho : w.vars y = some o) (src : Shape) (off : Int) (s : Shape) (al : Nat)
    (hv : ViewOk ty o src off s) (hinj : Injective s.resolve) (hsrc : InjectiveOn src s) :
    ∃ w' a', exec ty (.makeMoveRef y src off s al) w = .ok w' ∧
      w'.vars w.nextVar = some a' ∧ a'.shape = s.resolve ∧ a'.alloc.arena = al ∧ w'.vars y = some o ∧
      (∀ i, InBox s i → elem w' w.nextVar i = refElem w y src off i) ∧
      (∀ j, InBox o.shape j → elem w' y j =
        if ∃ i, InBox s i ∧ offsetOf o.shape j = off + offsetOf src i then (elem w y j).map ty.moved
        else elem w y j) ∧
      ∀ z, z ≠ w.nextVar → z ≠ y → w'.vars z = w.vars z ∧ ∀ i, elem w' z i = elem w z i := by
  have hI := hw.inv hdef
  obtain ⟨w', a', e, h⟩ := makeFrom_ok false al hI ho hv
  refine ⟨w', a', e, h.var, h.shape, h.alloc, h.source, h.vals hinj (Or.inr hsrc), ?_, ?_⟩
  · intro j hj
    split
    · rename_i hex
      obtain ⟨i, hi, ei⟩ := hex
      exact h.moved hinj hsrc rfl i j hi hj ei
    · rename_i hno
      exact h.rest j hj fun i hi ei => hno ⟨i, hi, ei⟩
  · intro z hz hzy
    have hz' : ¬ (z = w.nextVar ∨ (false = false ∧ z = y)) := by simp [hz, hzy]
    exact ⟨h.step.vars z hz', fun i => h.step.elem hI hz' i⟩

/-- C55: `make_move(array&&, shape, alloc)` when the array already has that shape and allocator, the case that
could take over the memory, copies instead: the source keeps its memory and all of its elements, and the result has other memory. -/
theorem C55_rvalue_copies (ty : Types V) (hdef : TypesOk ty) (w : World V) (hw : Reachable ty w)
    (y : Nat) (o : Arr) (ho : w.vars y = some o) (hb : o.base ≠ none)
    (hal : o.alloc.allocated = false) :
    ∃ w' a', exec ty (.makeMoveRvalue y o.shape o.alloc.arena) w = .ok w' ∧ w'.vars w.nextVar = some a' ∧
      a'.shape = o.shape ∧ a'.alloc.arena = ty.selectOnCopy o.alloc.arena ∧ w'.vars y = some o ∧
      (∀ b p q, a'.base = some (b, p) → o.base ≠ some (b, q)) ∧
      ∀ i, InBox o.shape i → elem w' w.nextVar i = elem w y i ∧ elem w' y i = elem w y i := by
  have hI := hw.inv hdef
  have hlt := hI.lt ho
  obtain ⟨w', a', e, h1, h2, h3, h4, h5⟩ := newCopy_ok hI hdef ho fun h => absurd h hb
  have hsh : a'.shape = o.shape := h5.shape.resolve_right fun h => hb h.1
  have hne : y ≠ w.nextVar := by omega
  have hy : w'.vars y = some o := by rw [h2.vars y hne]; exact ho
  refine ⟨w', a', ?_, h5.var, hsh, h4, hy, ?_, ?_⟩
  · rw [← e]
    show makeMoveRvalue ty y o.shape o.alloc.arena w = _
    unfold makeMoveRvalue
    rw [get_ok ho, bind_ok, if_pos ⟨rfl, by simp [Allocator.eq, hal]⟩]
  · intro b p q hp hq
    exact hne (h1.disj y w.nextVar o a' b 0 0 hy h5.var ((h1.good y o hy).base_block hq)
      ((h1.good _ a' h5.var).base_block hp))
  · intro i hi
    exact ⟨h5.vals (Or.inl rfl) i (by rw [hsh]; exact hi), h2.elem hI hne i⟩

/-- C55 fails for `make_move(array&&, shape, alloc)`: "the elements of `src` are moved to the result"
(array.h:2864) is wrong for it when shape and allocator are those of the source; the moved-from value would be `-1`.  And the result
need not have the allocator that is asked for (here copies of arena 1 are in arena 0). -/
theorem C55_rvalue_counterexample :
    let ty : Types Int := { exampleTypes with selectOnCopy := fun _ => 0 }
    let p : List (Cmd Int) := [.newFillAlloc [⟨0, 2, 1⟩, ⟨0, 2, 2⟩] 7 1,
      .makeMoveRvalue 0 [⟨0, 2, 1⟩, ⟨0, 2, 2⟩] 1]
    AllowedRun ty p World.start ∧ result ty p 1 [1, 1] = .ok 7 ∧ result ty p 0 [1, 1] = .ok 7 ∧
    (execAll ty p World.start >>= fun w => (w.get 1).map fun a => a.alloc.arena) = .ok 0 := by decide +kernel

/-- A crop of a 4×3 array with other strides; the elements of the source that are not in the crop stay. -/
example : let p : List (Cmd Int) := [.newFill [⟨0, 4, unresolved⟩, ⟨0, 3, unresolved⟩] 7, .write 0 [1, 1] 5,
      .write 0 [2, 2] 6, .makeMoveRef 0 [⟨1, 2, 1⟩, ⟨1, 2, 4⟩] 5 [⟨1, 2, 2⟩, ⟨1, 2, 1⟩] 3]
    AllowedRun exampleTypes p World.start ∧
    result exampleTypes p 1 [1, 1] = .ok 5 ∧ result exampleTypes p 1 [2, 2] = .ok 6 ∧
    result exampleTypes p 1 [2, 1] = .ok 7 ∧ result exampleTypes p 0 [1, 1] = .ok (-1) ∧
    result exampleTypes p 0 [2, 2] = .ok (-1) ∧ result exampleTypes p 0 [0, 1] = .ok 7 ∧
    result exampleTypes p 0 [3, 2] = .ok 7 := by decide +kernel
/-- A copy is independent. -/
example : let p : List (Cmd Int) := [.newFill [⟨0, 4, unresolved⟩, ⟨0, 3, unresolved⟩] 7,
      .makeCopy 0 [⟨1, 2, unresolved⟩, ⟨0, 3, unresolved⟩] 0, .write 0 [1, 1] 5, .write 1 [2, 2] 6]
    AllowedRun exampleTypes p World.start ∧
    result exampleTypes p 1 [1, 1] = .ok 7 ∧ result exampleTypes p 0 [2, 2] = .ok 7 ∧
    result exampleTypes p 1 [2, 2] = .ok 6 := by decide +kernel
/-- A shape that is not within the source is rejected. -/
example : outcome exampleTypes [.newFill [⟨0, 4, unresolved⟩, ⟨0, 3, unresolved⟩] 7,
    .makeCopy 0 [⟨1, 4, unresolved⟩, ⟨0, 3, unresolved⟩] 0] = some .assertion := by decide +kernel
/-- `make_compact_copy` removes padding. -/
example : makeCompactDynamic [⟨0, 3, 8⟩, ⟨-1, 2, 1⟩] = [⟨0, 3, 1⟩, ⟨-1, 2, 3⟩] := by decide +kernel

end Nda
