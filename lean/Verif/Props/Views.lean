import Verif.Lemmas.Views
import Verif.Lemmas.Flat
import Mathlib.Data.List.OfFn
import Mathlib.Tactic.IntervalCases
import Mathlib.Data.Fintype.Pi
/-
C20/C21 (crops and slices), C22 (transpose, reorder), C23 (the permutation check), and the
array_ref operations that rely on C10 (set_shape, reinterpret_shape).
-/
namespace Nda
open Spec

/-! ### C20 -/

/-- C20: the element of `a(args...)` at `j` has the same address as the element of `a` at the
full index. -/
theorem C20_same_element (a : ArrayRef) (args : List Arg) (h : args.length = a.shape.length)
    (j : Index) (hj : j.length = keptRank args) :
    (a.crop args).at_ j = a.at_ (fullIndex args j) := by
  unfold ArrayRef.at_ ArrayRef.crop pointerAdd
  cases hb : a.base with
  | none => rfl
  | some b =>
    have := crop_offset h j hj
    simp only [Option.map_some, flatOffset_eq]
    rw [← this]; congr 1; ring

/-- C20, in terms of addresses: base pointer plus documented offset. -/
theorem C20_address (a : ArrayRef) (args : List Arg) (h : args.length = a.shape.length)
    (b : Int) (hb : a.base = some b) (j : Index) (hj : j.length = keptRank args) :
    ∃ b', (a.crop args).base = some b' ∧
      b' + offsetOf (a.crop args).shape j = b + offsetOf a.shape (fullIndex args j) := by
  refine ⟨b + offsetOf a.shape (Shape.minsOfIntervals args a.shape), ?_, ?_⟩
  · unfold ArrayRef.crop pointerAdd; rw [hb, flatOffset_eq]; rfl
  · rw [← crop_offset h j hj]; unfold ArrayRef.crop; ring

/-- C20: the dims of the result, argument by argument. -/
theorem C20_shape :
    Shape.crop [] [] = [] ∧
    (∀ d s i as, Shape.crop (d :: s) (.idx i :: as) = Shape.crop s as) ∧
    (∀ d s v as, Shape.crop (d :: s) (.ivl v :: as) = ⟨v.min, v.extent, d.stride⟩ :: Shape.crop s as) ∧
    (∀ d s v as, Shape.crop (d :: s) (.dm v :: as) = ⟨v.min, v.extent, d.stride⟩ :: Shape.crop s as) ∧
    ∀ d s as, Shape.crop (d :: s) (.all :: as) = d :: Shape.crop s as :=
  ⟨crop_nil, fun _ _ _ _ => crop_cons .., fun _ _ _ _ => crop_cons .., fun _ _ _ _ => crop_cons ..,
    fun _ _ _ => crop_cons ..⟩

/-- Slicing channel 2, cropping x to [5, 8) and keeping y of an interleaved image. -/
example : (ArrayRef.mk (some 1000) [⟨0, 3, 1⟩, ⟨4, 10, 3⟩, ⟨0, 6, 30⟩]).crop
      [.idx 2, .ivl (range 5 8), .all] = ⟨some 1005, [⟨5, 3, 3⟩, ⟨0, 6, 30⟩]⟩ := by decide
example : fullIndex [.idx 2, .ivl (range 5 8), .all] [6, 1] = [2, 6, 1] := by decide

/-! ### C21 -/

/-- C21: if `is_in_range(args...)` then in-range elements of the result are in-range elements of
the original. -/
theorem C21_inside (s : Shape) (args : List Arg) (h : args.length = s.length)
    (hr : s.isInRangeArgs args = true) (j : Index) (hj : InBox (s.crop args) j) :
    InBox s (fullIndex args j) := by
  apply crop_inBox h _ j hj
  intro p hp
  right
  unfold Shape.isInRangeArgs at hr
  rw [all_iff] at hr
  apply hr
  rw [← List.map_uncurry_zip_eq_zipWith]
  exact List.mem_map.2 ⟨p, hp, rfl⟩

/-- C21: it suffices to check the arguments other than `_`. -/
theorem C21_inside_all (s : Shape) (args : List Arg) (h : args.length = s.length)
    (hr : ∀ p ∈ List.zip s args, p.2 = Arg.all ∨ Arg.isInRange p.1 p.2 = true)
    (j : Index) (hj : InBox (s.crop args) j) : InBox s (fullIndex args j) :=
  crop_inBox h hr j hj

/-- C21: conversely, a slice or non-empty crop with an argument that is not in range reaches an
index outside. -/
theorem C21_outside (d : Dim) (v : Interval) (hv : 0 < v.extent) (hr : d.isInRangeI v = false) :
    ∃ j, InBox (Shape.crop [d] [.ivl v]) j ∧ ¬ InBox [d] (fullIndex [.ivl v] j) := by
  rw [← Bool.not_eq_true, dim_isInRangeI_iff] at hr
  rw [crop_cons, crop_nil]
  by_cases h1 : d.min ≤ v.min
  · refine ⟨[v.min + v.extent - 1], ⟨?_, trivial⟩, ?_⟩
    · simp only [Arg.rangeWithStride]; omega
    · intro h; have := h.1; omega
  · refine ⟨[v.min], ⟨?_, trivial⟩, ?_⟩
    · simp only [Arg.rangeWithStride]; omega
    · intro h; have := h.1; omega

/-- C21: `is_in_range` rejects the placeholder `_` for a dim that does not contain index 0, since
it is compared as the interval `[0, -2]`, although a crop by `_` is the whole dim. -/
theorem C21_placeholder_rejected_counterexample :
    ∃ s : Shape, Pos s ∧ s.isInRangeArgs [.all] = false ∧ s.crop [.all] = s :=
  ⟨[⟨3, 5, 1⟩], by simp [Pos], by decide, by decide⟩

example : Shape.isInRangeArgs [⟨0, 3, 1⟩, ⟨4, 10, 3⟩, ⟨0, 6, 30⟩] [.idx 2, .ivl (range 5 8), .all] = true := by
  decide
example : Shape.isInRangeArgs [⟨0, 3, 1⟩, ⟨4, 10, 3⟩] [.idx 2, .ivl (range 5 15)] = false := by decide

/-! ### C22 -/

/-- C22, shapes: index `i` of `s` and index `j = (i[P[0]], i[P[1]], …, rest unchanged)` of
`transpose<P...>(s)` have the same offset, and one is in range iff the other is. -/
theorem C22_transpose_shape (s : Shape) (P : List Nat) (hP : P.Perm (List.range P.length))
    (hn : P.length ≤ s.length) (i : Index) (hi : i.length = s.length) :
    offsetOf (s.transpose P) (P.map (fun k => i.getD k 0) ++ i.drop P.length) = offsetOf s i ∧
    (InBox (s.transpose P) (P.map (fun k => i.getD k 0) ++ i.drop P.length) ↔ InBox s i) := by
  rw [transpose_eq_map hn, index_eq_map hi hn]
  exact ⟨perm_offset (transpose_perm hP hn) hi, perm_inBox (transpose_perm hP hn) hi⟩

/-- C22, shapes: every index of the transposed shape is of that form. -/
theorem C22_transpose_onto (s : Shape) (P : List Nat) (hP : P.Perm (List.range P.length))
    (hn : P.length ≤ s.length) (j : Index) (hj : j.length = s.length) :
    ∃ i : Index, i.length = s.length ∧ P.map (fun k => i.getD k 0) ++ i.drop P.length = j := by
  set Q := P ++ List.range' P.length (s.length - P.length) with hQdef
  have hQ : Q.Perm (List.range s.length) := transpose_perm hP hn
  have hQl : Q.length = s.length := by rw [hQ.length_eq, List.length_range]
  refine ⟨unshuffle Q j, ?_, ?_⟩
  · rw [unshuffle_eq (n := s.length) (fun k hk => List.mem_range.1 (hQ.mem_iff.1 hk)) (by rw [hj, hQl]),
      usedDims_of_perm hQ]
    simp
  · rw [index_eq_map (n := s.length) _ hn, ← hQdef, map_getD_unshuffle hQ (by rw [hj, hQl])]
    rw [unshuffle_eq (n := s.length) (fun k hk => List.mem_range.1 (hQ.mem_iff.1 hk)) (by rw [hj, hQl]),
      usedDims_of_perm hQ]
    simp

/-- C22, array_refs (whose strides are known): the transposed ref has the same base, its shape is
the transposed shape, and the assertion of `reinterpret_shape` holds. -/
theorem C22_transpose_ref (a : ArrayRef) (P : List Nat) (hP : P.Perm (List.range a.shape.length))
    (hk : ∀ d ∈ a.shape, Known d) :
    a.transpose P = ⟨a.base, a.shape.transpose P⟩ ∧
    a.reinterpretShapeAssert (a.shape.transpose P) 0 = true ∧
    ∀ i : Index, i.length = a.shape.length →
      (a.transpose P).at_ (P.map fun k => i.getD k 0) = a.at_ i := by
  have hlen : P.length = a.shape.length := by rw [hP.length_eq, List.length_range]
  have hP' : P.Perm (List.range P.length) := by rw [hlen]; exact hP
  have hperm := transpose_shape_perm (s := a.shape) hP' (by omega)
  have hres : Shape.resolve (a.shape.transpose P) = a.shape.transpose P :=
    resolve_of_known (fun d hd => hk d (hperm.mem_iff.1 hd))
  have hb : a.base.map (· + 0) = a.base := by cases a.base <;> simp
  have e : a.transpose P = ⟨a.base, a.shape.transpose P⟩ := by
    unfold ArrayRef.transpose ArrayRef.reinterpretShape ArrayRef.make
    rw [hres, hb]
  refine ⟨e, ?_, ?_⟩
  · unfold ArrayRef.reinterpretShapeAssert
    have e' : (a.reinterpretShape (a.shape.transpose P) 0).shape = a.shape.transpose P := by
      have := congrArg ArrayRef.shape e; exact this
    rw [e']
    unfold Shape.isSubsetOf
    have := perm_flat hperm
    rw [this.1, this.2]
    simp
  · intro i hi
    rw [e]
    unfold ArrayRef.at_
    rw [flatOffset_eq, flatOffset_eq]
    have := (C22_transpose_shape a.shape P hP' (by omega) i hi).1
    rw [List.drop_eq_nil_of_le (by omega), List.append_nil] at this
    rw [this]

/-- C22, `reorder<is...>(s)`: index `j` denotes the element of `s` whose listed coordinates are
`j` and whose other coordinates are the mins. -/
theorem C22_reorder_shape (s : Shape) (is : List Nat) (hlt : ∀ k ∈ is, k < s.length)
    (hnd : is.Nodup) (j : Index) (hj : j.length = is.length) :
    offsetOf (s.reorder is) j = offsetOf s (fixDropped s is j) ∧
    ((∀ k, k < s.length → k ∉ is → 0 < (s.getD k default).extent) →
      (InBox (s.reorder is) j ↔ InBox s (fixDropped s is j))) :=
  ⟨reorder_offset hlt hnd hj, reorder_inBox hlt hnd hj⟩

/-- C22, `reorder` of an array_ref with known strides. -/
theorem C22_reorder_ref (a : ArrayRef) (is : List Nat) (hlt : ∀ k ∈ is, k < a.shape.length)
    (hnd : is.Nodup) (hk : ∀ d ∈ a.shape, Known d) (j : Index) (hj : j.length = is.length) :
    (a.reorder is).at_ j = a.at_ (fixDropped a.shape is j) := by
  have hres : Shape.resolve (a.shape.reorder is) = a.shape.reorder is := by
    apply resolve_of_known
    intro d hd
    obtain ⟨k, hk', rfl⟩ := List.mem_map.1 hd
    exact hk _ (getD_mem (hlt k hk'))
  unfold ArrayRef.reorder ArrayRef.reinterpretShape ArrayRef.make ArrayRef.at_
  rw [hres, flatOffset_eq, flatOffset_eq, reorder_offset hlt hnd hj]
  cases a.base <;> simp

example : Shape.transpose [2, 0, 1] [⟨0, 3, 1⟩, ⟨1, 4, 3⟩, ⟨2, 5, 12⟩, ⟨0, 2, 60⟩] =
    [⟨2, 5, 12⟩, ⟨0, 3, 1⟩, ⟨1, 4, 3⟩, ⟨0, 2, 60⟩] := by decide
example : [2, 0, 1].Perm (List.range [2, 0, 1].length) := by decide
example : fixDropped [⟨0, 3, 1⟩, ⟨1, 4, 3⟩, ⟨2, 5, 12⟩] [2, 0] [4, 1] = [1, 1, 4] := by decide
example : ((ArrayRef.mk (some 50) [⟨0, 3, 1⟩, ⟨1, 4, 3⟩, ⟨2, 5, 12⟩]).reorder [2, 0]).at_ [4, 1] =
    some 75 := by decide

/-! ### C23 -/

theorem factorialSucc_eq (n : Nat) :
    factorialSucc n = ((List.range n).map fun i => ((i + 2 : Nat) : Int)).prod := by
  induction n with
  | zero => rfl
  | succ n ih =>
    rw [factorialSucc, ih, List.range_succ, List.map_append, List.prod_append]
    simp; ring

/-- C23: every permutation passes the check. -/
theorem C23_permutations_accepted (n : Nat) (is : List Nat) (h : is.Perm (List.range n)) :
    permutationCheck n is = true := by
  unfold permutationCheck
  rw [Bool.and_eq_true, Bool.and_eq_true, all_iff, product_eq, factorialSucc_eq]
  refine ⟨⟨by simp [h.length_eq], ?_⟩, ?_⟩
  · intro b hb
    obtain ⟨i, hi, rfl⟩ := List.mem_map.1 hb
    simpa using h.mem_iff.1 hi
  · rw [(h.map _).prod_eq]; simp

/-- C23: up to rank 4 nothing else passes. -/
theorem C23_exact_up_to_4 (n : Nat) (hn : n ≤ 4) (is : List Nat) :
    permutationCheck n is = true ↔ is.Perm (List.range n) := by
  refine ⟨?_, C23_permutations_accepted n is⟩
  intro h
  have h' := h
  unfold permutationCheck at h'
  rw [Bool.and_eq_true, Bool.and_eq_true, all_iff] at h'
  obtain ⟨⟨h1, h2⟩, -⟩ := h'
  have hlen : is.length = n := by simpa using h1
  have hlt : ∀ i ∈ is, i < n := fun i hi => by
    simpa using h2 _ (List.mem_map.2 ⟨i, hi, rfl⟩)
  -- all lists of length `n` with entries below `n`
  have key : ∀ n ≤ 4, ∀ f : Fin n → Fin n, permutationCheck n (List.ofFn fun k => (f k).val) = true →
      (List.ofFn fun k => (f k).val).Perm (List.range n) := by
    intro n hn
    interval_cases n <;> decide +kernel
  subst hlen
  have e : is = List.ofFn fun k : Fin is.length => (⟨is[k], hlt _ (List.getElem_mem k.2)⟩ : Fin is.length).val := by
    apply List.ext_getElem <;> simp
  have := key is.length hn (fun k => ⟨is[k], hlt _ (List.getElem_mem k.2)⟩)
  rw [← e] at this
  exact this h

/-- C23: at every rank from 5 on some list that is not a permutation passes. -/
theorem C23_non_permutation_accepted (n : Nat) (hn : 5 ≤ n) :
    ∃ is : List Nat, permutationCheck n is = true ∧ ¬ is.Nodup ∧ ¬ is.Perm (List.range n) := by
  refine ⟨[1, 1, 2, 2, 3] ++ List.range' 5 (n - 5), ?_, ?_, ?_⟩
  · unfold permutationCheck
    rw [Bool.and_eq_true, Bool.and_eq_true, all_iff, product_eq, factorialSucc_eq]
    have hr : List.range n = [0, 1, 2, 3, 4] ++ List.range' 5 (n - 5) := by
      have h1 := List.range'_append_1 (s := 0) (m := 5) (n := n - 5)
      rw [Nat.zero_add, Nat.add_sub_cancel' hn] at h1
      rw [List.range_eq_range', ← h1]; rfl
    refine ⟨⟨?_, ?_⟩, ?_⟩
    · simp; omega
    · intro b hb
      obtain ⟨i, hi, rfl⟩ := List.mem_map.1 hb
      rw [decide_eq_true_eq]
      rcases List.mem_append.1 hi with hi | hi
      · simp at hi; omega
      · rw [List.mem_range'_1] at hi; omega
    · rw [hr, List.map_append, List.map_append, List.prod_append, List.prod_append, beq_iff_eq]
      congr 1
  · intro h
    have := (List.nodup_append.1 h).1
    exact absurd this (by decide)
  · intro h
    have := h.nodup_iff.2 List.nodup_range
    exact absurd (List.nodup_append.1 this).1 (by decide)

example : permutationCheck 4 [3, 1, 0, 2] = true ∧ permutationCheck 4 [3, 1, 1, 2] = false := by decide
example : permutationCheck 5 [1, 1, 2, 2, 3] = true := by decide

/-! ### C10 applied: set_shape and reinterpret_shape -/

/-- C10: an array_ref whose `set_shape` assertion passed addresses only between the lowest and
highest element of the original. -/
theorem C10_set_shape (a : ArrayRef) (b : Int) (hb : a.base = some b) (new : Shape) (offset : Int)
    (hp : Pos a.shape) (h : a.setShapeAssert new offset = true) (i : Index) (hi : InBox new i) :
    ∃ b' lo hi', (a.setShape new offset).base = some b' ∧ (a.setShape new offset).shape = new ∧
      InBox a.shape lo ∧ InBox a.shape hi' ∧
      b + offsetOf a.shape lo ≤ b' + offsetOf new i ∧ b' + offsetOf new i ≤ b + offsetOf a.shape hi' := by
  obtain ⟨lo, hlo, elo⟩ := exists_flatMin hp
  obtain ⟨hi', hhi, ehi⟩ := exists_flatMax hp
  refine ⟨b + offset, lo, hi', ?_, rfl, hlo, hhi, ?_⟩
  · unfold ArrayRef.setShape pointerAdd; rw [hb]; rfl
  · unfold ArrayRef.setShapeAssert Shape.isSubsetOf at h
    rw [Bool.and_eq_true, Bool.and_eq_true, decide_eq_true_eq, decide_eq_true_eq] at h
    have := offsetOf_bounds hi
    omega

/-- C10: the same for `reinterpret_shape`, whose result shape has its unknown strides resolved. -/
theorem C10_reinterpret_shape (a : ArrayRef) (b : Int) (hb : a.base = some b) (new : Shape)
    (offset : Int) (hp : Pos a.shape) (h : a.reinterpretShapeAssert new offset = true) (i : Index)
    (hi : InBox (a.reinterpretShape new offset).shape i) :
    ∃ b' lo hi', (a.reinterpretShape new offset).base = some b' ∧
      InBox a.shape lo ∧ InBox a.shape hi' ∧
      b + offsetOf a.shape lo ≤ b' + offsetOf (a.reinterpretShape new offset).shape i ∧
      b' + offsetOf (a.reinterpretShape new offset).shape i ≤ b + offsetOf a.shape hi' := by
  obtain ⟨lo, hlo, elo⟩ := exists_flatMin hp
  obtain ⟨hi', hhi, ehi⟩ := exists_flatMax hp
  refine ⟨b + offset, lo, hi', ?_, hlo, hhi, ?_⟩
  · unfold ArrayRef.reinterpretShape ArrayRef.make; rw [hb]; rfl
  · unfold ArrayRef.reinterpretShapeAssert Shape.isSubsetOf at h
    rw [Bool.and_eq_true, decide_eq_true_eq, decide_eq_true_eq] at h
    have := offsetOf_bounds hi
    omega

example : (ArrayRef.mk (some 10) [⟨0, 4, 1⟩, ⟨0, 4, 4⟩]).setShapeAssert [⟨0, 2, -1⟩, ⟨0, 2, 8⟩] 1 = true := by
  decide

end Nda
