import Verif.Lemmas.Overlap
import Verif.Props.ArrayViews
import Verif.Props.Restrict
/-
C95: `copy` and `move` between views that have elements in common: scrolling, shifting and repacking in place.
-/
namespace Nda
open Spec

variable {V : Type}

/-- C95: if the dims of the destination can be arranged as rows, planes, volumes, and no element is overwritten with
another value before it is copied, in the order of the addresses of the destination, then `copy` gives the destination
the values that the source had, also between views of one array. -/
theorem C95_copy (ty : Types V) (hdef : TypesOk ty) (w : World V) (hw : Reachable ty w) (y x : Nat) (o a : Arr)
    (ho : w.vars y = some o) (ha : w.vars x = some a) (src dst : Shape) (soff doff : Int)
    (hv : PairOk o src soff a dst doff) (hs : Stackable dst) (hn : y = x → NotSpoiled src soff dst doff) :
    ∃ w', exec ty (.copyRef y src soff x dst doff) w = .ok w' ∧ Reachable ty w' ∧ w'.vars = w.vars ∧
      (∀ i, InBox dst i → refElem w' x dst doff i = refElem w y src soff i) ∧
      (∀ z c j, w.vars z = some c → InBox c.shape j → (z = x → Outside dst doff c j) → elem w' z j = elem w z j) := by
  have hI := hw.inv hdef
  obtain ⟨w', tr, e, hk, hen, hord, hc⟩ := assignRef_ordered true hI ho ha hv
  have hI' := hk.inv hI
  have hord := hord hs
  have hm : ∀ q ∈ tr, InBox dst q := fun q hq => (hen.2 q).1 hq
  obtain ⟨w'', e', hw', hvars, -, hframe⟩ := C58_copy ty hdef w hw y x o a ho ha src dst soff doff hv
  have e' : assignRef true ty y src soff x dst doff w = .ok w'' := e'
  obtain rfl : w' = w'' := by rw [e] at e'; exact Except.ok.inj e'
  refine ⟨w', e, hw', hvars, fun i hi => ?_, hframe⟩
  obtain ⟨_, hr, hr'⟩ := hv.sub i hi
  rw [refElem_eq hI hI' ho (by rw [hk.vars]; exact ha) hr hr' id]
  · cases refElem w y src soff i <;> rfl
  · rw [hc, Option.map_id, id]
    refine ordered_copy ty (fun i => o.cell src soff i) (fun i => a.cell dst doff i) tr _ ?_ ?_ i ((hen.2 i).2 hi)
    · refine hord.imp fun {p q} h e => ?_
      have := ((cell_block hI ha ha hr'.1 hr'.1).1 e).2
      omega
    · refine pairwise_of_mem hord fun p hp q hq h e => ?_
      obtain ⟨e1, e2⟩ := (cell_block hI ha ho hr'.1 hr.1).1 e
      exact (cell_block hI ho ho hr.1 hr.1).2 ⟨rfl, by rw [hn e1.symm p q (hm p hp) (hm q hq) h e2]⟩

/-- C95: `move` in the same situation, if no element is the source of two indices.  Sources that are not destinations are
moved-from. -/
theorem C95_move (ty : Types V) (hdef : TypesOk ty) (w : World V) (hw : Reachable ty w) (y x : Nat) (o a : Arr)
    (ho : w.vars y = some o) (ha : w.vars x = some a) (src dst : Shape) (soff doff : Int)
    (hv : PairOk o src soff a dst doff) (hs : Stackable dst) (hinj : InjectiveOn src dst)
    (hn : y = x → NotOverwritten src soff dst doff) :
    ∃ w', exec ty (.moveRef y src soff x dst doff) w = .ok w' ∧ Reachable ty w' ∧ w'.vars = w.vars ∧
      (∀ i, InBox dst i → refElem w' x dst doff i = refElem w y src soff i) ∧
      (∀ i, InBox dst i → (y = x → ∀ j, InBox dst j → doff + offsetOf dst j ≠ soff + offsetOf src i) →
        refElem w' y src soff i = (refElem w y src soff i).map ty.moved) ∧
      (∀ z c j, w.vars z = some c → InBox c.shape j → (z = x → Outside dst doff c j) →
        (z = y → ∀ i, InBox dst i → offsetOf c.shape j ≠ soff + offsetOf src i) → elem w' z j = elem w z j) := by
  have hI := hw.inv hdef
  obtain ⟨w', tr, e, hk, hen, hord, hc⟩ := assignRef_ordered false hI ho ha hv
  have hI' := hk.inv hI
  have hord := hord hs
  have hm : ∀ q ∈ tr, InBox dst q := fun q hq => (hen.2 q).1 hq
  obtain ⟨w'', e', hw', hvars, -, hframe⟩ := C58_move ty hdef w hw y x o a ho ha src dst soff doff hv
  have e' : assignRef false ty y src soff x dst doff w = .ok w'' := e'
  obtain rfl : w' = w'' := by rw [e] at e'; exact Except.ok.inj e'
  refine ⟨w', e, hw', hvars, fun i hi => ?_, fun i hi hnd => ?_, hframe⟩
  · obtain ⟨_, hr, hr'⟩ := hv.sub i hi
    rw [refElem_eq hI hI' ho (by rw [hk.vars]; exact ha) hr hr' id]
    · cases refElem w y src soff i <;> rfl
    · rw [hc, Option.map_id, id]
      refine ordered_move ty (fun i => o.cell src soff i) (fun i => a.cell dst doff i) tr _ ?_ ?_ ?_ i ((hen.2 i).2 hi)
      · refine hord.imp fun {p q} h e => ?_
        have := ((cell_block hI ha ha hr'.1 hr'.1).1 e).2
        omega
      · refine pairwise_of_mem hord fun p hp q hq h e => ?_
        obtain ⟨e1, e2⟩ := (cell_block hI ha ho hr'.1 hr.1).1 e
        exact hn e1.symm p q (hm p hp) (hm q hq) h e2
      · refine pairwise_of_mem hord fun p hp q hq h e => ?_
        have := ((cell_block hI ho ho hr.1 hr.1).1 e).2
        have := hinj p q (hm p hp) (hm q hq) (by omega)
        subst this
        omega
  · obtain ⟨_, hr, hr'⟩ := hv.sub i hi
    rw [refElem_eq hI hI' ho (by rw [hk.vars]; exact ho) hr hr ty.moved]
    rw [hc]
    refine transfer_moved ty (fun i => o.cell src soff i) (fun i => a.cell dst doff i) tr _ i ((hen.2 i).2 hi) hen.1 ?_ ?_
    · intro q hq e
      obtain ⟨e1, e2⟩ := (cell_block hI ha ho hr'.1 hr.1).1 e
      exact hnd e1.symm q (hm q hq) e2
    · intro q hq e
      have := ((cell_block hI ho ho hr.1 hr.1).1 e).2
      exact hinj q i (hm q hq) hi (by omega)

/-- C95: the condition of `C95_copy` is exact: if it does not hold then there are values of the elements for which the
destination does not get the values that the source had. -/
theorem C95_exact (src dst : ArrayRef) (a b : Int) (hsb : src.base = some a) (hdb : dst.base = some b)
    (hl : List.length src.shape = List.length dst.shape) (hp : Pos dst.shape) (hs : Stackable dst.shape) :
    (∀ m : Mem Int, ∀ i, InBox dst.shape i →
      copy id src dst m (b + offsetOf dst.shape i) = m (a + offsetOf src.shape i)) ↔
      NotSpoiled src.shape a dst.shape b := by
  obtain ⟨tr, hen, htr, hord⟩ := copy_order hl hp a b
  have hord := hord hs
  have hcopy : ∀ m : Mem Int, copy id src dst m =
      tr.foldl (fun m i => copyAssign id m (a + offsetOf src.shape i, b + offsetOf dst.shape i)) m := by
    intro m
    unfold copy copyTrace
    rw [if_neg fun h => (empty_iff_not_pos fun d h => (hp d h).le).1 h hp, hsb, hdb, htr, List.foldl_map]
  have hd : tr.Pairwise fun p q => b + offsetOf dst.shape p ≠ b + offsetOf dst.shape q := hord.imp fun h e => by omega
  constructor
  · intro h i j hi hj hij e
    obtain ⟨l1, l', rfl⟩ := List.append_of_mem ((hen.2 i).2 hi)
    have hj' := (hen.2 j).2 hj
    rw [List.pairwise_append] at hord
    rcases List.mem_append.1 hj' with hj' | hj'
    · have := hord.2.2 j hj' i (by simp)
      omega
    rcases List.mem_cons.1 hj' with rfl | hj'
    · omega
    obtain ⟨l2, l3, rfl⟩ := List.append_of_mem hj'
    have := spoiled_set (fun i => a + offsetOf src.shape i) (fun i => b + offsetOf dst.shape i) l1 l2 l3 i j hd e
      fun m r hr => by
        have := h m r ((hen.2 r).1 hr)
        rwa [hcopy] at this
    simpa using this
  · intro h m i hi
    rw [hcopy]
    refine ordered_set (fun i => a + offsetOf src.shape i) (fun i => b + offsetOf dst.shape i) tr m hd ?_ i ((hen.2 i).2 hi)
    refine pairwise_of_mem hord fun p hp q hq hlt e => ?_
    rw [h p q ((hen.2 p).1 hp) ((hen.2 q).1 hq) hlt e]

/-- C95: the condition holds if no element moves to a higher address. -/
theorem C95_downward (src dst : Shape) (a b : Int) (h : Downward src a dst b) : NotOverwritten src a dst b := by
  intro i j hi hj hij e
  have := h j hj
  omega

theorem NotOverwritten.notSpoiled {src dst : Shape} {a b : Int} (h : NotOverwritten src a dst b) : NotSpoiled src a dst b :=
  fun i j hi hj hij e => absurd e (h i j hi hj hij)

/-- C95: between two places with the same layout, `copy` is right for all values exactly if it goes to lower addresses or the
places have no element in common. -/
theorem C95_shift (s : Shape) (hp : Pos s) (hs : Stackable s) (a b : Int) :
    (∀ m : Mem Int, ∀ i, InBox s i → copy id ⟨some a, s⟩ ⟨some b, s⟩ m (b + offsetOf s i) = m (a + offsetOf s i)) ↔
      b ≤ a ∨ NoCommon s a s b := by
  rw [show (∀ m : Mem Int, ∀ i, InBox s i → copy id ⟨some a, s⟩ ⟨some b, s⟩ m (b + offsetOf s i) = m (a + offsetOf s i)) ↔
    NotSpoiled s a s b from C95_exact ⟨some a, s⟩ ⟨some b, s⟩ a b rfl rfl rfl hp hs]
  constructor
  · intro h
    by_contra hc
    push Not at hc
    obtain ⟨hab, hc⟩ := hc
    unfold NoCommon at hc
    push Not at hc
    obtain ⟨i, j, hi, hj, e⟩ := hc
    have := h j i hj hi (by omega) (by omega)
    omega
  · rintro (h | h) i j hi hj hij e
    · omega
    · exact absurd e.symm (h j i hj hi)

/-- C95: repacking in place: from larger to smaller strides and not to a higher start.  For example padding can be removed
from the rows of an image, or one channel of an image collected at its start. -/
theorem C95_repack (src dst : Shape) (a b : Int)
    (h : List.Forall₂ (fun c d => c.min = d.min ∧ d.stride ≤ c.stride) src dst) (hab : b ≤ a) : Downward src a dst b := by
  intro i hi
  have := offset_le_of_strides h hi
  omega

/-- C95: scrolling the rows of a part of an image by `k` rows towards its start, where the part does not have the full rows:
the result is right, and the rows copied at a time have no common elements, as `__restrict__` asks for. -/
theorem C95_scroll (m0 m1 n h S k : Int) (hn : 0 < n) (hh : 0 < h) (hS : n < S) (hk : 0 < k) (b : Int) (blk : Nat) :
    let s : Shape := [⟨m0, n, 1⟩, ⟨m1, h, S⟩]
    Stackable s ∧ NotOverwritten s (b + k * S) s b ∧
      RestrictOk blk blk (copyGroups s (some (b + k * S)) s (some b)) := by
  intro s
  have hp : Pos s := by simp [s, Pos, hn, hh]
  have hkS : S ≤ k * S := by nlinarith
  refine ⟨⟨s, List.Perm.refl _, ?_⟩, ?_, ?_⟩
  · simp only [s, Stacked, and_true]
    exact ⟨fun _ => by omega, fun _ => by omega⟩
  · apply C95_downward
    intro i _
    omega
  · rw [restrict_copy_same s hp]
    have : optimizeShape s = s := by
      show padTo _ _ (fuseLoop canFuse fuse (bubbleSort dimLt s)) = s
      rw [bubbleSort_of_sorted (by simp only [s, List.pairwise_cons, List.mem_singleton, forall_eq]; simp; omega)]
      simp only [s]
      rw [fuseLoop, if_neg (by simp [canFuse]; omega), fuseLoop]
      rfl
    rw [this]
    intro d hd _
    simp only [s, List.head?_cons, Option.some.injEq] at hd
    subst hd
    dsimp only
    rw [abs_sub_comm, add_sub_cancel_left, abs_of_nonneg (by omega)]
    omega

/-- C95: with full rows the rows are copied all at once, and what `__restrict__` asks for holds only if source and
destination have no element in common. -/
theorem C95_full_rows (m0 m1 n h k : Int) (hn : 0 < n) (hh : 0 < h) (hk : 0 < k) (b : Int) (blk : Nat) :
    let s : Shape := [⟨m0, n, 1⟩, ⟨m1, h, n⟩]
    Stackable s ∧ NotOverwritten s (b + k * n) s b ∧
      (RestrictOk blk blk (copyGroups s (some (b + k * n)) s (some b)) ↔ h ≤ k) := by
  intro s
  have hp : Pos s := by simp [s, Pos, hn, hh]
  have hkn : n ≤ k * n := by nlinarith
  refine ⟨⟨s, List.Perm.refl _, ?_⟩, ?_, ?_⟩
  · simp only [s, Stacked, and_true]
    exact ⟨fun _ => by omega, fun _ => by omega⟩
  · apply C95_downward
    intro i _
    omega
  · rw [restrict_copy_same s hp]
    have : (optimizeShape s).head? = some ⟨m0 + m1 * n, n * h, 1⟩ := by
      show (padTo _ _ (fuseLoop canFuse fuse (bubbleSort dimLt s))).head? = _
      rw [bubbleSort_of_sorted (by simp only [s, List.pairwise_cons, List.mem_singleton, forall_eq]; simp; omega)]
      simp only [s]
      rw [fuseLoop, if_pos (by simp [canFuse]), fuseLoop]
      rfl
    rw [this]
    simp only [Option.some.injEq, forall_eq', forall_const]
    rw [abs_sub_comm, add_sub_cancel_left, abs_of_nonneg (by omega)]
    rw [mul_comm n h]
    exact ⟨fun h1 => le_of_mul_le_mul_right h1 hn, fun h1 => mul_le_mul_of_nonneg_right h1 hn.le⟩

/-! ### Concrete cases -/

/-- The first column of two is scrolled up by one row, in an array of 2 × 3 with elements 10, 11 | 20, 21 | 30, 31. -/
example : let p : List (Cmd Int) := [.newShape [⟨0, 2, 1⟩, ⟨0, 3, 2⟩], .forEach 0 [⟨0, 2, 1⟩] 0 fun k _ => 10 + k,
      .forEach 0 [⟨0, 2, 1⟩] 2 fun k _ => 20 + k, .forEach 0 [⟨0, 2, 1⟩] 4 fun k _ => 30 + k]
    AllowedRun exampleTypes (p ++ [.copyRef 0 [⟨0, 1, 1⟩, ⟨0, 2, 2⟩] 2 0 [⟨0, 1, 1⟩, ⟨0, 2, 2⟩] 0]) World.start ∧
    [[0, 0], [1, 0], [0, 1], [1, 1], [0, 2], [1, 2]].map
      (result exampleTypes (p ++ [.copyRef 0 [⟨0, 1, 1⟩, ⟨0, 2, 2⟩] 2 0 [⟨0, 1, 1⟩, ⟨0, 2, 2⟩] 0]) 0) =
        [.ok 20, .ok 11, .ok 30, .ok 21, .ok 30, .ok 31] ∧
    -- moved instead of copied: the last row, which is no destination, is moved-from
    [[0, 0], [1, 0], [0, 1], [1, 1], [0, 2], [1, 2]].map
      (result exampleTypes (p ++ [.moveRef 0 [⟨0, 1, 1⟩, ⟨0, 2, 2⟩] 2 0 [⟨0, 1, 1⟩, ⟨0, 2, 2⟩] 0]) 0) =
        [.ok 20, .ok 11, .ok 30, .ok 21, .ok (-1), .ok 31] ∧
    -- down by one row: the first row is repeated
    [[0, 0], [1, 0], [0, 1], [1, 1], [0, 2], [1, 2]].map
      (result exampleTypes (p ++ [.copyRef 0 [⟨0, 1, 1⟩, ⟨0, 2, 2⟩] 0 0 [⟨0, 1, 1⟩, ⟨0, 2, 2⟩] 2]) 0) =
        [.ok 10, .ok 11, .ok 10, .ok 21, .ok 10, .ok 31] := by decide +kernel

/-- Channel 1 of three pixels with three channels is collected at the start. -/
example : (List.range 9).map (fun k : Nat => copy id ⟨some 1, [⟨0, 3, 3⟩]⟩ ⟨some 0, [⟨0, 3, 1⟩]⟩ (fun x => 10 * x) k) =
    [10, 40, 70, 30, 40, 50, 60, 70, 80] := by decide +kernel
example : Downward [⟨0, 3, 3⟩] 1 [⟨0, 3, 1⟩] 0 :=
  C95_repack _ _ _ _ (.cons ⟨rfl, by decide⟩ .nil) (by decide)

/-- Padding is removed from two rows of three. -/
example : (List.range 8).map (fun k : Nat =>
    copy id ⟨some 0, [⟨0, 3, 1⟩, ⟨0, 2, 5⟩]⟩ ⟨some 0, [⟨0, 3, 1⟩, ⟨0, 2, 3⟩]⟩ (fun x => x) k) = [0, 1, 2, 5, 6, 7, 6, 7] := by
  decide +kernel
/-- This asks for something `__restrict__` rules out: row 0 is copied to itself. -/
example : ¬ RestrictOk 0 0 (copyGroups [⟨0, 3, 1⟩, ⟨0, 2, 5⟩] (some 0) [⟨0, 3, 1⟩, ⟨0, 2, 3⟩] (some 0)) := by
  have : copyGroups [⟨0, 3, 1⟩, ⟨0, 2, 5⟩] (some 0) [⟨0, 3, 1⟩, ⟨0, 2, 3⟩] (some 0) =
    [.dense [(0, 0), (1, 1), (2, 2)], .dense [(5, 3), (6, 4), (7, 5)]] := by decide +kernel
  rw [this]
  intro h
  exact h [(0, 0), (1, 1), (2, 2)] (by simp) (0, 0) (by simp) (0, 0) (by simp) rfl
/-- Collecting a channel asks for nothing: the sources are not next to each other, so the loop is not the dense one. -/
example : RestrictOk 0 0 (copyGroups [⟨0, 3, 3⟩] (some 1) [⟨0, 3, 1⟩] (some 0)) := by
  have : copyGroups [⟨0, 3, 3⟩] (some 1) [⟨0, 3, 1⟩] (some 0) = [.single (1, 0), .single (4, 1), .single (7, 2)] := by
    decide +kernel
  rw [this]
  intro l h
  simp at h

/-- A source that is a single element and one of the destinations: it is overwritten with its own value. -/
example : NotSpoiled [⟨0, 3, 0⟩] 0 [⟨0, 3, 1⟩] 0 ∧ ¬ NotOverwritten [⟨0, 3, 0⟩] 0 [⟨0, 3, 1⟩] 0 := by
  refine ⟨fun i j _ _ _ _ => ?_, fun h => h [0] [1] (by decide) (by decide) (by decide) (by decide)⟩
  match i, j with
  | [], [] => rfl
  | [], _ :: _ => simp [offsetOf]
  | _ :: _, [] => simp [offsetOf]
  | _ :: _, _ :: _ => simp [offsetOf]
example : (List.range 3).map (fun k : Nat => copy id ⟨some 1, [⟨0, 3, 0⟩]⟩ ⟨some 0, [⟨0, 3, 1⟩]⟩ (fun x => 10 * x) k) =
    [10, 10, 10] := by decide +kernel

end Nda
