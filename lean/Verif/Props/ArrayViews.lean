import Verif.Lemmas.ArrayRun
import Verif.Props.Array
/-
C58: `copy`, `move`, `for_each_value`, `fill`, `generate` and `transform_index` on views of arrays, which may
be views of the same array.
-/
namespace Nda
open Spec

variable {V : Type}

/-- The view of array `x` with shape `s` and offset `off` has no element at index `j` of `x`. -/
def Outside (s : Shape) (off : Int) (a : Arr) (j : Index) : Prop :=
  ∀ i, InBox s i → offsetOf a.shape j ≠ off + offsetOf s i

theorem pair_allowed {ty : Types V} {w : World V} {y x : Nat} {o a : Arr} {src dst : Shape} {soff doff : Int}
    (ho : w.vars y = some o) (ha : w.vars x = some a) (hv : PairOk o src soff a dst doff) :
    With w y fun o => With w x fun a => PairOk o src soff a dst doff :=
  with_iff.2 ⟨o, ho, with_iff.2 ⟨a, ha, hv⟩⟩

/-- Elements outside of the view keep their value. -/
theorem cell_outside {ty : Types V} {w : World V} (hI : Inv ty w) {z x : Nat} {c a : Arr}
    (hz : w.vars z = some c) (hx : w.vars x = some a) (hb : c.base ≠ none) {s : Shape} {off : Int}
    {i j : Index} (hr : Refers a s off i) (hi : InBox s i) (ho : z = x → Outside s off c j) :
    a.cell s off i ≠ c.cell c.shape 0 j := by
  intro e
  obtain ⟨rfl, e⟩ := (cell_block hI hx hz hr.1 hb).1 e
  exact ho rfl i hi (by omega)

/-- C58: `copy` from a view of array `y` to a view of array `x`.  The statement is executed without undefined
behaviour.  If different indices of the destination are different elements, and what is copied to is not a
source at another index, then the destination has the values that the source had.  All other elements of
all arrays are unchanged. -/
theorem C58_copy (ty : Types V) (hdef : TypesOk ty) (w : World V) (hw : Reachable ty w) (y x : Nat) (o a : Arr)
    (ho : w.vars y = some o) (ha : w.vars x = some a) (src dst : Shape) (soff doff : Int)
    (hv : PairOk o src soff a dst doff) :
    ∃ w', exec ty (.copyRef y src soff x dst doff) w = .ok w' ∧ Reachable ty w' ∧ w'.vars = w.vars ∧
      (Injective dst →
        (y = x → ∀ i j, InBox dst i → InBox dst j → doff + offsetOf dst i = soff + offsetOf src j → i = j) →
        ∀ i, InBox dst i → refElem w' x dst doff i = refElem w y src soff i) ∧
      (∀ z c j, w.vars z = some c → InBox c.shape j → (z = x → Outside dst doff c j) →
        elem w' z j = elem w z j) := by
  have hI := hw.inv hdef
  obtain ⟨w', tr, e, hk, hen, hc⟩ := assignRef_ok true hI ho ha hv
  have hI' := hk.inv hI
  refine ⟨w', e, hw.exec (c := .copyRef y src soff x dst doff) (pair_allowed (ty := ty) ho ha hv) e, hk.vars, ?_, ?_⟩
  · intro hinj hal i hi
    obtain ⟨_, hr, hr'⟩ := hv.sub i hi
    have hm : ∀ q ∈ tr, InBox dst q := fun q hq => (hen.2 q).1 hq
    rw [refElem_eq hI hI' ho (by rw [hk.vars]; exact ha) hr hr' id]
    · cases refElem w y src soff i <;> rfl
    · rw [hc, Option.map_id, id]
      apply transfer_value true ty (fun i => o.cell src soff i) (fun i => a.cell dst doff i) tr _ i
        ((hen.2 i).2 hi) hen.1
      · intro q hq e
        have := ((cell_block hI ha ha hr'.1 hr'.1).1 e).2
        exact hinj q i (hm q hq) hi (by omega)
      · intro q hq e
        obtain ⟨e1, e2⟩ := (cell_block hI ha ho hr'.1 hr.1).1 e
        exact hal e1.symm q i (hm q hq) hi e2
      · intro h; simp at h
  · intro z c j hz hj hout
    apply elem_frame hI hk hz hj
    intro hb
    rw [hc]
    apply transfer_frame true ty (fun i => o.cell src soff i) (fun i => a.cell dst doff i) tr
    · intro i hi
      have hi := (hen.2 i).1 hi
      exact cell_outside hI hz ha hb (hv.sub i hi).2.2 hi hout
    · intro h; simp at h

/-- C58: if indices of the destination share elements, then the value of an element is one of the values that
are copied to it. -/
theorem C58_copy_some (ty : Types V) (hdef : TypesOk ty) (w : World V) (hw : Reachable ty w) (y x : Nat)
    (o a : Arr) (ho : w.vars y = some o) (ha : w.vars x = some a) (src dst : Shape) (soff doff : Int)
    (hv : PairOk o src soff a dst doff)
    (hal : y = x → ∀ i j, InBox dst i → InBox dst j → doff + offsetOf dst i ≠ soff + offsetOf src j) :
    ∃ w', exec ty (.copyRef y src soff x dst doff) w = .ok w' ∧
      ∀ i, InBox dst i → ∃ j, InBox dst j ∧ offsetOf dst j = offsetOf dst i ∧
        refElem w' x dst doff i = refElem w y src soff j := by
  have hI := hw.inv hdef
  obtain ⟨w', tr, e, hk, hen, hc⟩ := assignRef_ok true hI ho ha hv
  have hI' := hk.inv hI
  refine ⟨w', e, ?_⟩
  intro i hi
  have hm : ∀ q ∈ tr, InBox dst q := fun q hq => (hen.2 q).1 hq
  obtain ⟨p, hp, h1, h2⟩ := transfer_last ty (fun i => o.cell src soff i) (fun i => a.cell dst doff i) tr w.cells
    (a.cell dst doff i) ⟨i, (hen.2 i).2 hi, rfl⟩ (by
      intro p hp q hq e
      obtain ⟨_, hr, _⟩ := hv.sub p (hm p hp)
      obtain ⟨_, _, hr'⟩ := hv.sub q (hm q hq)
      obtain ⟨e1, e2⟩ := (cell_block hI ha ho hr'.1 hr.1).1 e
      exact hal e1.symm q p (hm q hq) (hm p hp) e2)
  obtain ⟨_, hr, hr'⟩ := hv.sub p (hm p hp)
  have hri := (hv.sub i hi).2.2
  refine ⟨p, hm p hp, ?_, ?_⟩
  · have := ((cell_block hI ha ha hr'.1 hr'.1).1 h1).2
    omega
  · rw [refElem_eq hI hI' ho (by rw [hk.vars]; exact ha) hr hri id]
    · cases refElem w y src soff p <;> rfl
    · rw [hc, Option.map_id, id]; exact h2

/-- C58: `move` from a view of array `y` to a view of array `x`, if no element is in both. -/
theorem C58_move (ty : Types V) (hdef : TypesOk ty) (w : World V) (hw : Reachable ty w) (y x : Nat) (o a : Arr)
    (ho : w.vars y = some o) (ha : w.vars x = some a) (src dst : Shape) (soff doff : Int)
    (hv : PairOk o src soff a dst doff) :
    ∃ w', exec ty (.moveRef y src soff x dst doff) w = .ok w' ∧ Reachable ty w' ∧ w'.vars = w.vars ∧
      (Injective dst → InjectiveOn src dst →
        (y = x → ∀ i j, InBox dst i → InBox dst j → doff + offsetOf dst i ≠ soff + offsetOf src j) →
        ∀ i, InBox dst i → refElem w' x dst doff i = refElem w y src soff i ∧
          refElem w' y src soff i = (refElem w y src soff i).map ty.moved) ∧
      (∀ z c j, w.vars z = some c → InBox c.shape j → (z = x → Outside dst doff c j) →
        (z = y → ∀ i, InBox dst i → offsetOf c.shape j ≠ soff + offsetOf src i) → elem w' z j = elem w z j) := by
  have hI := hw.inv hdef
  obtain ⟨w', tr, e, hk, hen, hc⟩ := assignRef_ok false hI ho ha hv
  have hI' := hk.inv hI
  refine ⟨w', e, hw.exec (c := .moveRef y src soff x dst doff) (pair_allowed (ty := ty) ho ha hv) e, hk.vars, ?_, ?_⟩
  · intro hinj hinj' hal i hi
    obtain ⟨_, hr, hr'⟩ := hv.sub i hi
    have hm : ∀ q ∈ tr, InBox dst q := fun q hq => (hen.2 q).1 hq
    have hsd : ∀ q ∈ tr, a.cell dst doff q ≠ o.cell src soff i := by
      intro q hq e
      obtain ⟨e1, e2⟩ := (cell_block hI ha ho hr'.1 hr.1).1 e
      exact hal e1.symm q i (hm q hq) hi e2
    have hss : ∀ q ∈ tr, o.cell src soff q = o.cell src soff i → q = i := by
      intro q hq e
      have := ((cell_block hI ho ho hr.1 hr.1).1 e).2
      exact hinj' q i (hm q hq) hi (by omega)
    constructor
    · rw [refElem_eq hI hI' ho (by rw [hk.vars]; exact ha) hr hr' id]
      · cases refElem w y src soff i <;> rfl
      · rw [hc, Option.map_id, id]
        apply transfer_value false ty (fun i => o.cell src soff i) (fun i => a.cell dst doff i) tr _ i
          ((hen.2 i).2 hi) hen.1
        · intro q hq e
          have := ((cell_block hI ha ha hr'.1 hr'.1).1 e).2
          exact hinj q i (hm q hq) hi (by omega)
        · intro q hq e
          exact absurd e (hsd q hq)
        · intro _ q hq
          refine ⟨hss q hq, fun e => ?_⟩
          obtain ⟨e1, e2⟩ := (cell_block hI ho ha hr.1 hr'.1).1 e
          exact absurd e2.symm (hal e1 i q hi (hm q hq))
    · rw [refElem_eq hI hI' ho (by rw [hk.vars]; exact ho) hr hr ty.moved]
      rw [hc]
      exact transfer_moved ty (fun i => o.cell src soff i) (fun i => a.cell dst doff i) tr _ i
        ((hen.2 i).2 hi) hen.1 hsd hss
  · intro z c j hz hj hout hout'
    apply elem_frame hI hk hz hj
    intro hb
    rw [hc]
    apply transfer_frame false ty (fun i => o.cell src soff i) (fun i => a.cell dst doff i) tr
    · intro i hi
      have hi := (hen.2 i).1 hi
      exact cell_outside hI hz ha hb (hv.sub i hi).2.2 hi hout
    · intro _ i hi e
      have hi := (hen.2 i).1 hi
      obtain ⟨e1, e2⟩ := (cell_block hI ho hz (hv.sub i hi).2.1.1 hb).1 e
      exact hout' e1.symm i hi (by omega)

/-- C58: `for_each_value` on a view of array `x` calls the function once for each index of the view.  With a
function that replaces its argument, `f k` in the `k`-th call, every element has been replaced.  All other
elements of all arrays are unchanged.  With `f k v = g k` this is `generate`. -/
theorem C58_for_each (ty : Types V) (hdef : TypesOk ty) (w : World V) (hw : Reachable ty w) (x : Nat) (a : Arr)
    (ha : w.vars x = some a) (s : Shape) (off : Int) (hv : PartOk a s off) (f : Nat → V → V) :
    ∃ w' l, exec ty (.forEach x s off f) w = .ok w' ∧ Reachable ty w' ∧ w'.vars = w.vars ∧ Enumerates s l ∧
      (Injective s → ∀ k i, l[k]? = some i → refElem w' x s off i = (refElem w x s off i).map (f k)) ∧
      (∀ z c j, w.vars z = some c → InBox c.shape j → (z = x → Outside s off c j) →
        elem w' z j = elem w z j) := by
  have hI := hw.inv hdef
  obtain ⟨w', tr, e, hk, hen, hc⟩ := forEachRef_ok f hI ha hv
  have hI' := hk.inv hI
  have hm : ∀ p ∈ tr.zipIdx, InBox s p.1 := fun p hp => (hen.2 _).1 (List.fst_mem_of_mem_zipIdx hp)
  refine ⟨w', tr, e, hw.exec (c := .forEach x s off f) (with_iff.2 ⟨a, ha, hv⟩) e, hk.vars, hen, ?_, ?_⟩
  · intro hinj k i hki
    have hi : InBox s i := (hen.2 i).1 (List.mem_of_getElem? hki)
    have hr := hv.sub i hi
    rw [refElem_eq hI hI' ha (by rw [hk.vars]; exact ha) hr hr (f k)]
    rw [hc]
    have hnd : tr.zipIdx.Nodup := List.Nodup.of_map Prod.fst (by rw [List.zipIdx_map_fst]; exact hen.1)
    apply update_value (fun p : Index × Nat => a.cell s off p.1) (fun p => f p.2) tr.zipIdx _ (i, k)
      (List.mk_mem_zipIdx_iff_getElem?.2 hki) hnd
    rintro ⟨q, n⟩ hq e
    have e := ((cell_block hI ha ha hr.1 hr.1).1 e).2
    have h1 : q = i := hinj q i (hm _ hq) hi (by simpa using e)
    subst h1
    have h2 := List.mk_mem_zipIdx_iff_getElem?.1 hq
    obtain ⟨hn1, hn2⟩ := List.getElem?_eq_some_iff.1 h2
    obtain ⟨hk1, hk2⟩ := List.getElem?_eq_some_iff.1 hki
    have := (List.Nodup.getElem_inj_iff hen.1).1 (hn2.trans hk2.symm)
    rw [this]
  · intro z c j hz hj hout
    apply elem_frame hI hk hz hj
    intro hb
    rw [hc]
    apply update_frame (fun p : Index × Nat => a.cell s off p.1) (fun p => f p.2)
    intro p hp
    exact cell_outside hI hz ha hb (hv.sub _ (hm p hp)) (hm p hp) hout

/-- C58: after `fill` of a view of array `x`, all elements of the view are `v`; all other elements of all
arrays are unchanged. -/
theorem C58_fill (ty : Types V) (hdef : TypesOk ty) (w : World V) (hw : Reachable ty w) (x : Nat) (a : Arr)
    (ha : w.vars x = some a) (s : Shape) (off : Int) (hv : PartOk a s off) (v : V) :
    ∃ w', exec ty (.forEach x s off fun _ _ => v) w = .ok w' ∧ Reachable ty w' ∧ w'.vars = w.vars ∧
      (∀ i, InBox s i → refElem w' x s off i = .ok v) ∧
      (∀ z c j, w.vars z = some c → InBox c.shape j → (z = x → Outside s off c j) →
        elem w' z j = elem w z j) := by
  have hI := hw.inv hdef
  obtain ⟨w', tr, e, hk, hen, hc⟩ := forEachRef_ok (fun _ _ => v) hI ha hv
  have hI' := hk.inv hI
  have hm : ∀ p ∈ tr.zipIdx, InBox s p.1 := fun p hp => (hen.2 _).1 (List.fst_mem_of_mem_zipIdx hp)
  refine ⟨w', e, hw.exec (c := .forEach x s off fun _ _ => v) (with_iff.2 ⟨a, ha, hv⟩) e, hk.vars, ?_, ?_⟩
  · intro i hi
    have hr := hv.sub i hi
    obtain ⟨u, hu⟩ := refElem_ok hI ha hr
    rw [refElem_cells hI' (by rw [hk.vars]; exact ha) hr, hc]
    refine update_const (fun p : Index × Nat => a.cell s off p.1) (fun _ _ => v) v tr.zipIdx _ _
      (fun _ _ _ => rfl) ?_ ?_
    · rw [(refElem_cells hI ha hr).1 hu]; simp
    · obtain ⟨k, hk⟩ := List.mem_iff_getElem?.1 ((hen.2 i).2 hi)
      exact ⟨(i, k), List.mk_mem_zipIdx_iff_getElem?.2 hk, rfl⟩
  · intro z c j hz hj hout
    apply elem_frame hI hk hz hj
    intro hb
    rw [hc]
    apply update_frame (fun p : Index × Nat => a.cell s off p.1) (fun _ _ => v)
    intro p hp
    exact cell_outside hI hz ha hb (hv.sub _ (hm p hp)) (hm p hp) hout

/-- C58: after `transform_index` or `transform_indices` of a view of array `x`, the element at index `i` is
`f i`; all other elements of all arrays are unchanged. -/
theorem C58_transform (ty : Types V) (hdef : TypesOk ty) (w : World V) (hw : Reachable ty w) (x : Nat) (a : Arr)
    (ha : w.vars x = some a) (s : Shape) (off : Int) (hv : PartOk a s off) (f : Index → V) :
    ∃ w', exec ty (.transform x s off f) w = .ok w' ∧ Reachable ty w' ∧ w'.vars = w.vars ∧
      (Injective s → ∀ i, InBox s i → refElem w' x s off i = .ok (f i)) ∧
      (∀ z c j, w.vars z = some c → InBox c.shape j → (z = x → Outside s off c j) →
        elem w' z j = elem w z j) := by
  have hI := hw.inv hdef
  obtain ⟨w', tr, e, hk, hen, hc⟩ := transformRef_ok f hI ha hv
  have hI' := hk.inv hI
  have hm : ∀ i ∈ tr, InBox s i := fun i hi => (hen.2 i).1 hi
  refine ⟨w', e, hw.exec (c := .transform x s off f) (with_iff.2 ⟨a, ha, hv⟩) e, hk.vars, ?_, ?_⟩
  · intro hinj i hi
    have hr := hv.sub i hi
    rw [refElem_eq hI hI' ha (by rw [hk.vars]; exact ha) hr hr fun _ => f i]
    · obtain ⟨u, hu⟩ := refElem_ok hI ha hr
      rw [hu]; rfl
    · rw [hc]
      apply update_value (fun i => a.cell s off i) (fun i _ => f i) tr _ i ((hen.2 i).2 hi) hen.1
      intro q hq e
      have e := ((cell_block hI ha ha hr.1 hr.1).1 e).2
      exact hinj q i (hm q hq) hi (by omega)
  · intro z c j hz hj hout
    apply elem_frame hI hk hz hj
    intro hb
    rw [hc]
    apply update_frame (fun i => a.cell s off i) (fun i _ => f i)
    intro i hi
    exact cell_outside hI hz ha hb (hv.sub i (hm i hi)) (hm i hi) hout

/-! ### Concrete cases -/

/-- The elements of array `x` of shape `[0, 3) × [0, 2)` after a program. -/
def elements (ty : Types Int) (p : List (Cmd Int)) (x : Nat) : List (Except Fault Int) :=
  [[0, 0], [1, 0], [2, 0], [0, 1], [1, 1], [2, 1]].map (result ty p x)

/-- An array with elements 10, 11, 12 in row 0 and 20, 21, 22 in row 1. -/
def exampleRows : List (Cmd Int) :=
  [.newShape [⟨0, 3, 1⟩, ⟨0, 2, 3⟩],
    .forEach 0 [⟨0, 3, 1⟩] 0 fun k _ => 10 + k, .forEach 0 [⟨0, 3, 1⟩] 3 fun k _ => 20 + k]

example : AllowedRun exampleTypes exampleRows World.start ∧
    elements exampleTypes exampleRows 0 = [.ok 10, .ok 11, .ok 12, .ok 20, .ok 21, .ok 22] := by decide +kernel
/-- Row 1 is copied to row 0 of the same array, from right to left. -/
example : let p := exampleRows ++ [.copyRef 0 [⟨0, 3, -1⟩] 5 0 [⟨0, 3, 1⟩] 0]
    AllowedRun exampleTypes p World.start ∧
    elements exampleTypes p 0 = [.ok 22, .ok 21, .ok 20, .ok 20, .ok 21, .ok 22] := by decide +kernel
/-- The right part of row 1 is moved to the left part of row 0. -/
example : let p := exampleRows ++ [.moveRef 0 [⟨1, 2, 1⟩] 4 0 [⟨1, 2, 1⟩] 0]
    AllowedRun exampleTypes p World.start ∧
    elements exampleTypes p 0 = [.ok 21, .ok 22, .ok 12, .ok 20, .ok (-1), .ok (-1)] := by decide +kernel
/-- A column is filled. -/
example : let p := exampleRows ++ [.forEach 0 [⟨0, 2, 3⟩] 1 fun _ _ => 7]
    AllowedRun exampleTypes p World.start ∧
    elements exampleTypes p 0 = [.ok 10, .ok 7, .ok 12, .ok 20, .ok 7, .ok 22] := by decide +kernel
/-- The second row is replaced, with values that depend on the old ones and on the number of the call. -/
example : let p := exampleRows ++ [.forEach 0 [⟨0, 3, 1⟩] 3 fun k v => v * 10 + k]
    AllowedRun exampleTypes p World.start ∧
    elements exampleTypes p 0 = [.ok 10, .ok 11, .ok 12, .ok 200, .ok 211, .ok 222] := by decide +kernel
/-- A view that leaves the array is not allowed, and writing there is undefined. -/
example : let p := exampleRows ++ [.forEach 0 [⟨0, 4, 1⟩] 3 fun _ _ => 7]
    ¬ AllowedRun exampleTypes p World.start ∧ outcome exampleTypes p = some .outOfBounds := by decide +kernel

/-- C58 needs its condition on overlaps: if a row is copied one element to the right within the same array,
then sources are overwritten before they are copied.  Element `[2, 0]` is the one at index 1 of the
destination, and `[1, 0]` the one at index 1 of the source. -/
theorem C58_overlap_counterexample : ∃ (p : List (Cmd Int)) (s : Shape) (soff doff : Int),
    TypesOk exampleTypes ∧ AllowedRun exampleTypes (p ++ [.copyRef 0 s soff 0 s doff]) World.start ∧
    Injective s ∧ InBox s [1] ∧
    offsetOf [⟨0, 3, 1⟩, ⟨0, 2, 3⟩] [2, 0] = doff + offsetOf s [1] ∧
    offsetOf [⟨0, 3, 1⟩, ⟨0, 2, 3⟩] [1, 0] = soff + offsetOf s [1] ∧
    result exampleTypes (p ++ [.copyRef 0 s soff 0 s doff]) 0 [2, 0] ≠ result exampleTypes p 0 [1, 0] :=
  ⟨exampleRows, [⟨0, 2, 1⟩], 0, 1, by decide +kernel, by decide +kernel, by
    intro i j hi hj e
    match i, j, hi, hj with
    | [u], [v], _, _ => simpa [offsetOf] using e, by decide, by decide, by decide, by decide +kernel⟩

/-- Copying to the left goes in the order that makes the condition unnecessary here. -/
example : let p := exampleRows ++ [.copyRef 0 [⟨0, 2, 1⟩] 1 0 [⟨0, 2, 1⟩] 0]
    elements exampleTypes p 0 = [.ok 11, .ok 12, .ok 12, .ok 20, .ok 21, .ok 22] := by decide +kernel

/-- The right part of the array, by index. -/
example : (do
    let w ← execAll exampleTypes exampleRows World.start
    let w ← exec exampleTypes (.transform 0 [⟨5, 2, 1⟩, ⟨0, 2, 3⟩] 1 fun i => i.sum * 100) w
    [[0, 0], [1, 0], [2, 0], [0, 1], [1, 1], [2, 1]].mapM (elem w 0)) =
      .ok [10, 500, 600, 20, 600, 700] := by
  have h : Shape.forEachIndex [⟨5, 2, 1⟩, ⟨0, 2, 3⟩] = some (boxList [⟨5, 2, 1⟩, ⟨0, 2, 3⟩]) :=
    forEachIndex_eq (by simp [NonNeg])
  simp only [exec, transformRef, h]
  decide +kernel

end Nda
