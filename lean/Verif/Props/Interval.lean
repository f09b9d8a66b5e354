import Verif.Model.Interval
import Verif.Lemmas.Static
import Verif.Spec.Static
import Verif.Spec.Box
/-
C59: intervals, their iterators, and comparisons.
-/
namespace Nda
open Spec

/-- The indices of an interval (array.h:234-235: `[min, min + extent)`). -/
def Spec.InIntvl (v : Interval) (i : Int) : Prop := v.min ≤ i ∧ i < v.min + v.extent

/-- The parameters of an interval type tell the truth about an interval. -/
def Spec.FitsInterval (t : IntervalT) (v : Interval) : Prop :=
  Describes t.min v.min ∧ Describes t.extent v.extent

theorem ciInit_of {V x : Int} (h : Describes V x) : ciInit V x = x := by
  unfold ciInit isStatic dynamic
  by_cases hV : V = -9
  · simp [hV]
  · simp [hV, h hV]

/-! ### Comparisons -/

/-- C59: equal intervals contain the same indices. -/
theorem C59_equal_sound (v u : Interval) (h : v.eq u = true) (i : Int) : InIntvl v i ↔ InIntvl u i := by
  unfold Interval.eq at h
  simp only [Bool.and_eq_true, beq_iff_eq] at h
  unfold InIntvl
  rw [h.1, h.2]

/-- C59: intervals with the same indices are equal, if there are any. -/
theorem C59_equal_complete (v u : Interval) (hv : 0 < v.extent)
    (h : ∀ i, InIntvl v i ↔ InIntvl u i) : v.eq u = true ∧ v.ne u = false := by
  unfold InIntvl at h
  have h1 := (h v.min).1 ⟨le_rfl, by omega⟩
  have h2 := (h u.min).2 ⟨le_rfl, by omega⟩
  have h3 := (h (v.min + v.extent - 1)).1 (by omega)
  have h4 := (h (u.min + u.extent - 1)).2 (by omega)
  have e1 : v.min = u.min := by omega
  have e2 : v.extent = u.extent := by omega
  constructor
  · unfold Interval.eq; simp [e1, e2]
  · unfold Interval.ne Interval.eq; simp [e1, e2]

/-- C59: the documentation ("considered equal if they contain the same indices", array.h:326-327) is not right
for empty intervals: `range(0, 0)` and `range(5, 5)` are different. -/
theorem C59_equal_empty_counterexample : ∃ v u : Interval, 0 ≤ v.extent ∧ 0 ≤ u.extent ∧
    (∀ i, InIntvl v i ↔ InIntvl u i) ∧ v.eq u = false ∧ v.ne u = true :=
  ⟨range 0 0, range 5 5, by decide, by decide, fun i => by unfold InIntvl range; dsimp only; omega, by decide,
    by decide⟩

/-- C59: dims compare equal exactly if min, extent and stride are the same. -/
theorem C59_dim_equal (d u : Dim) : (d.eq u = true ↔ d = u) ∧ (d.ne u = true ↔ d ≠ u) := by
  have h : d.eq u = true ↔ d = u := by
    cases d
    cases u
    simp [Dim.eq, and_assoc]
  refine ⟨h, ?_⟩
  unfold Dim.ne
  rw [Bool.not_eq_true', ← Bool.not_eq_true, not_congr h]

/-- C59: dims are equal if min, extent and stride are; shapes are equal if all their dims are. -/
theorem C59_shape_equal (s t : Shape) (h : List.length s = List.length t) :
    (s.eq t = true ↔ s = t) ∧ (s.ne t = true ↔ s ≠ t) := by
  have key : ∀ (s t : List Dim), s.length = t.length → (dimsEq s t = true ↔ s = t) := by
    intro s
    induction s with
    | nil => intro t h; simp only [List.length_nil] at h; simp [dimsEq, List.length_eq_zero_iff.1 h.symm]
    | cons d ds ih =>
      intro t h
      match t, h with
      | u :: us, h =>
        have hl : ds.length = us.length := by simpa using h
        obtain ⟨d1, d2, d3⟩ := d
        obtain ⟨u1, u2, u3⟩ := u
        simp [dimsEq, ih us hl, Dim.eq, and_assoc]
  refine ⟨key s t h, ?_⟩
  unfold Shape.ne Shape.eq
  rw [Bool.not_eq_true', ← Bool.not_eq_true, key s t h]

/-- C59: equal shapes have the same indices and offsets. -/
theorem C59_shape_equal_mapping (s t : Shape) (h : List.length s = List.length t) (he : s.eq t = true) (i : Index) :
    (InBox s i ↔ InBox t i) ∧ offsetOf s i = offsetOf t i := by
  rw [((C59_shape_equal s t h).1).1 he]
  exact ⟨Iff.rfl, rfl⟩

/-! ### Construction -/

/-- C59: the static member `Max` is the last index of every interval of the type, where it is known; it is known
if both parameters are (and do not add up to the number that stands for unknown). -/
theorem C59_static_max (t : IntervalT) (v : Interval) (h : FitsInterval t v) :
    (t.Max = -9 ∨ t.Max = v.min + v.extent - 1) ∧
    (t.min ≠ -9 → t.extent ≠ -9 → t.min + t.extent ≠ -9 → t.Max = v.min + v.extent - 1) := by
  obtain ⟨h1, h2⟩ := h
  unfold Describes at h1 h2
  unfold IntervalT.Max staticSub staticAdd isDynamic2 isDynamic dynamic
  by_cases a : t.min = -9
  · simp [a]
  · by_cases b : t.extent = -9
    · simp [b]
    · by_cases c : t.min + t.extent = -9
      · simp [b, c]
      · simp [a, b, c, h1 a, h2 b]

/-- C59: `interval<Min, Extent>(min, extent)`: the assertions pass exactly if the arguments agree with the
static parameters, and then the accessors return the arguments; without assertions static parameters win. -/
theorem C59_construct (t : IntervalT) (m e : Int) :
    (t.makeAssert m e = true ↔ FitsInterval t ⟨m, e⟩) ∧ (t.makeAssert m e = true → t.make m e = ⟨m, e⟩) ∧
    FitsInterval t (t.make m e) := by
  have h : t.makeAssert m e = true ↔ FitsInterval t ⟨m, e⟩ := by
    unfold IntervalT.makeAssert FitsInterval
    rw [Bool.and_eq_true, ciAssert_iff, ciAssert_iff]
  refine ⟨h, fun h' => ?_, ciInit_describes _ _, ciInit_describes _ _⟩
  obtain ⟨h1, h2⟩ := h.1 h'
  unfold IntervalT.make
  rw [ciInit_of h1, ciInit_of h2]

/-- C59: the documented defaults: a min that is not given is `Min` or 0, an extent is `Extent` or 1; default
construction never asserts. -/
theorem C59_default (t : IntervalT) :
    t.defaultAssert = true ∧ FitsInterval t t.default_ ∧ (t.min = -9 → t.default_.min = 0) ∧
    (t.extent = -9 → t.default_.extent = 1) ∧
    ∀ m, (t.ofMinAssert m = true ↔ Describes t.min m) ∧
      (Describes t.min m → (t.ofMin m).min = m ∧ (t.extent = -9 → (t.ofMin m).extent = 1) ∧
        Describes t.extent (t.ofMin m).extent) := by
  have hmin : Describes t.min (if isStatic t.min then t.min else 0) := by
    intro h; simp [isStatic, dynamic, h]
  have hext : Describes t.extent (if isStatic t.extent then t.extent else 1) := by
    intro h; simp [isStatic, dynamic, h]
  refine ⟨?_, ⟨ciInit_describes _ _, ciInit_describes _ _⟩, ?_, ?_, fun m => ⟨?_, fun h => ⟨ciInit_of h, ?_, ciInit_describes _ _⟩⟩⟩
  · unfold IntervalT.defaultAssert IntervalT.ofMinAssert IntervalT.makeAssert
    rw [Bool.and_eq_true, ciAssert_iff, ciAssert_iff]
    exact ⟨hmin, hext⟩
  · intro h; simp [IntervalT.default_, IntervalT.ofMin, IntervalT.make, ciInit, isStatic, dynamic, h]
  · intro h; simp [IntervalT.default_, IntervalT.ofMin, IntervalT.make, ciInit, isStatic, dynamic, h]
  · unfold IntervalT.ofMinAssert IntervalT.makeAssert
    rw [Bool.and_eq_true, ciAssert_iff, ciAssert_iff]
    exact ⟨fun h => h.1, fun h => ⟨h, hext⟩⟩
  · intro h; simp [IntervalT.ofMin, IntervalT.make, ciInit, isStatic, dynamic, h]

/-- C59: conversion from an interval of another type keeps min and extent, if it is allowed; conversions that the
compiler rejects are those that could never be. -/
theorem C59_convert (t u : IntervalT) (src : Interval) (hu : FitsInterval u src) :
    (t.convertAssert src = true ↔ FitsInterval t src) ∧ (FitsInterval t src → t.convert src = src) ∧
    (FitsInterval t src → t.canConvert u = true) ∧ FitsInterval t (t.convert src) := by
  refine ⟨(C59_construct t _ _).1, fun h => ?_, fun h => ?_, (C59_construct t _ _).2.2⟩
  · exact (C59_construct t src.min src.extent).2.1 ((C59_construct t _ _).1.2 h)
  · unfold IntervalT.canConvert notEqual isStatic dynamic
    unfold FitsInterval Describes at h hu
    simp only [Bool.and_eq_true, Bool.not_eq_true', Bool.and_eq_false_iff, bne_eq_false_iff_eq]
    constructor
    · by_cases h1 : t.min = -9
      · simp [h1]
      · by_cases h2 : u.min = -9
        · simp [h2]
        · right; rw [← h.1 h1, ← hu.1 h2]
    · by_cases h1 : t.extent = -9
      · simp [h1]
      · by_cases h2 : u.extent = -9
        · simp [h2]
        · right; rw [← h.2 h1, ← hu.2 h2]

/-- C59: assignment from an interval of another type, whatever was there. -/
theorem C59_assign (t : IntervalT) (v src : Interval) :
    (FitsInterval t src → t.assign v src = src) ∧ FitsInterval t (t.assign v src) :=
  ⟨fun h => (C59_construct t src.min src.extent).2.1 ((C59_construct t _ _).1.2 h), (C59_construct t _ _).2.2⟩

/-- C59: after `set_max(m)` the last index is `m` and the first is as before. -/
theorem C59_set_max (t : IntervalT) (v : Interval) (m : Int) (h : t.setMaxAssert v m = true) :
    (t.setMax v m).max = m ∧ (t.setMax v m).min = v.min ∧
    (∀ i, InIntvl (t.setMax v m) i ↔ v.min ≤ i ∧ i ≤ m) := by
  unfold IntervalT.setMaxAssert at h
  rw [ciAssert_iff] at h
  unfold IntervalT.setMax IntervalT.setExtent Interval.max InIntvl
  dsimp only
  rw [ciInit_of h]
  refine ⟨by omega, rfl, fun i => by omega⟩

/-- C59: the same for intervals without static parameters. -/
theorem C59_set_max_dynamic (v : Interval) (m : Int) :
    (v.setMax m).max = m ∧ (v.setMax m).min = v.min ∧ ∀ i, InIntvl (v.setMax m) i ↔ v.min ≤ i ∧ i ≤ m := by
  unfold Interval.setMax Interval.max InIntvl
  exact ⟨by dsimp only; omega, rfl, fun i => by dsimp only; omega⟩

/-- C59: `range(b, e)` and `r(b, e)` contain the indices from `b` to `e`, not including `e`. -/
theorem C59_range (b e i : Int) : InIntvl (range b e) i ↔ b ≤ i ∧ i < e := by
  unfold InIntvl range; dsimp only; omega

/-- C59: `range<E>(b)` and `r<E>(b)`. -/
theorem C59_range_fixed (e b i : Int) (he : e ≠ -9) : InIntvl (rangeFixed e b) i ↔ b ≤ i ∧ i < b + e := by
  have : rangeFixed e b = ⟨b, e⟩ := by
    unfold rangeFixed IntervalT.ofMin IntervalT.make ciInit isStatic dynamic
    simp [he]
  rw [this]; rfl

/-- C59: `is_in_range(i)` is being an index; `is_in_range(interval)` is containing all of its indices, if it has
any. -/
theorem C59_is_in_range (v u : Interval) (i : Int) :
    (v.isInRange i = true ↔ InIntvl v i) ∧
    (0 < u.extent → (v.isInRangeI u = true ↔ ∀ j, InIntvl u j → InIntvl v j)) := by
  unfold Interval.isInRange Interval.isInRangeI InIntvl Interval.max
  simp only [Bool.and_eq_true, decide_eq_true_eq]
  refine ⟨by omega, fun hu => ⟨fun h j hj => by omega, fun h => ?_⟩⟩
  have h1 := h u.min (by omega)
  have h2 := h (u.min + u.extent - 1) (by omega)
  omega

/-- C59: `clamp(x, interval)` is an index of a non-empty interval. -/
theorem C59_clamp (x : Int) (v : Interval) (h : 0 < v.extent) :
    InIntvl v (Interval.clampTo x v) ∧ (InIntvl v x → Interval.clampTo x v = x) := by
  unfold Interval.clampTo clamp imin imax InIntvl Interval.max
  split <;> split <;> omega

/-! ### Iterators -/

/-- C59: `index_iterator` moves like a pointer. -/
theorem C59_iterator (a : IndexIterator) (n m : Int) :
    (a.add n).deref = a.deref + n ∧ a.at_ n = (a.add n).deref ∧ (a.sub n).deref = a.deref - n ∧
    (a.add n).diff a = n ∧ (a.add n).add m = a.add (n + m) ∧ (a.add n).sub n = a ∧
    a.addAssign n = a.add n ∧ a.subAssign n = a.sub n ∧
    a.inc = a.add 1 ∧ a.dec = a.sub 1 ∧ a.inc.dec = a ∧
    a.postInc = (a, a.add 1) ∧ a.postDec = (a, a.sub 1) := by
  obtain ⟨i⟩ := a
  simp [IndexIterator.add, IndexIterator.deref, IndexIterator.at_, IndexIterator.sub, IndexIterator.diff,
    IndexIterator.addAssign, IndexIterator.subAssign, IndexIterator.inc, IndexIterator.dec, IndexIterator.postInc,
    IndexIterator.postDec, add_assoc]

/-- C59: iterators are equal exactly if they refer to the same index, exactly if their distance is 0. -/
theorem C59_iterator_equal (a b : IndexIterator) :
    (a.eq b = true ↔ a.deref = b.deref) ∧ (a.ne b = !(a.eq b)) ∧ (a.eq b = true ↔ a.diff b = 0) := by
  unfold IndexIterator.eq IndexIterator.ne IndexIterator.deref IndexIterator.diff
  simp only [beq_iff_eq, bne]
  exact ⟨trivial, trivial, by omega⟩

/-- C59: the iterators of an interval: `end() - begin()` is the number of indices, and from `begin()` the `n`-th
index is reached by `n` increments. -/
theorem C59_begin_end (v : Interval) (n : Nat) :
    v.endIt.diff v.beginIt = v.extent ∧ v.size = v.extent ∧ (IndexIterator.inc^[n] v.beginIt).deref = v.min + n ∧
    v.beginIt.at_ n = v.min + n ∧
    ((IndexIterator.inc^[n] v.beginIt).eq v.endIt = true ↔ (n : Int) = v.extent) := by
  have h : ∀ (n : Nat) (a : IndexIterator), IndexIterator.inc^[n] a = ⟨a.i + n⟩ := by
    intro n
    induction n with
    | zero => intro a; simp
    | succ n ih =>
      intro a
      rw [Function.iterate_succ_apply, ih]
      unfold IndexIterator.inc
      simp only [IndexIterator.mk.injEq]
      omega
  rw [h]
  unfold Interval.endIt Interval.beginIt IndexIterator.diff Interval.size IndexIterator.deref IndexIterator.at_
    IndexIterator.eq Interval.max
  simp only [beq_iff_eq]
  refine ⟨by omega, trivial, trivial, trivial, by omega⟩

/-! ### Concrete cases -/

/-- `interval<2, 3>`, default constructed, is 2, 3, 4. -/
example : (IntervalT.default_ ⟨2, 3⟩) = ⟨2, 3⟩ ∧ (IntervalT.default_ ⟨dynamic, 8⟩) = ⟨0, 8⟩ ∧
    (IntervalT.default_ ⟨0, dynamic⟩) = ⟨0, 1⟩ := by decide
/-- `interval<2, 3>(1, 3)`: an assertion, and without it the min is 2. -/
example : IntervalT.makeAssert ⟨2, 3⟩ 1 3 = false ∧ IntervalT.make ⟨2, 3⟩ 1 3 = ⟨2, 3⟩ := by decide
/-- `fixed_interval<3> x = interval<>(5, 3)`. -/
example : IntervalT.convertAssert ⟨dynamic, 3⟩ ⟨5, 3⟩ = true ∧ IntervalT.convert ⟨dynamic, 3⟩ ⟨5, 3⟩ = ⟨5, 3⟩ ∧
    IntervalT.canConvert ⟨0, 2⟩ ⟨dynamic, 3⟩ = false := by decide
/-- An extent of -9 is taken for `dynamic`: `range<-9>` has one index. -/
example : rangeFixed (-9) 4 = ⟨4, 1⟩ := by decide
example : (rangeFixed 3 4).beginIt.at_ 2 = 6 ∧ (rangeFixed 3 4).endIt = ⟨7⟩ ∧
    IndexIterator.diff ⟨7⟩ ⟨4⟩ = 3 := by decide
/-- With an empty argument `is_in_range` still looks at the bounds. -/
example : Interval.isInRangeI ⟨0, 4⟩ (range 9 9) = false ∧ Interval.isInRangeI ⟨0, 4⟩ (range 4 4) = true := by decide

end Nda
