import Verif.Spec.TestPattern
import Verif.Props.Algorithms
/-
C106: the contents that the tests give to arrays and check (test/test.h:130-171).
-/
namespace Nda
open Spec
variable {α : Type}

private theorem patternImpl_eq {i offset : Index} (h5 : i.length ≤ 5) (h : offset.length = i.length) :
    patternImpl patternBasis i offset = some (patternNumber (List.zipWith (· + ·) i offset)) := by
  match i, offset, h5, h with
  | [], [], _, _ => rfl
  | [x], [a], _, _ => simp [patternImpl, patternBasis, patternNumber]
  | [x, y], [a, b], _, _ => simp [patternImpl, patternBasis, patternNumber]; ring
  | [x, y, z], [a, b, c], _, _ => simp [patternImpl, patternBasis, patternNumber]; ring
  | [x, y, z, w], [a, b, c, d], _, _ => simp [patternImpl, patternBasis, patternNumber]; ring
  | [x, y, z, w, v], [a, b, c, d, e], _, _ => simp [patternImpl, patternBasis, patternNumber]; ring
  | _ :: _ :: _ :: _ :: _ :: _ :: _, _, h5, _ => simp at h5

private theorem patternImpl_long {basis : List Int} {i offset : Index} (h : basis.length < i.length) : patternImpl basis i offset = none := by
  induction basis generalizing i offset with
  | nil =>
    cases i with
    | nil => simp at h
    | cons x i => cases offset <;> rfl
  | cons b basis ih =>
    cases i with
    | nil => simp at h
    | cons x i =>
      cases offset with
      | nil => rfl
      | cons o offset =>
        rw [patternImpl, ih (by simpa using h)]
        rfl

private theorem zip_zero (i : Index) : List.zipWith (· + ·) i (i.map fun _ => (0 : Int)) = i := by
  induction i with
  | nil => rfl
  | cons x i ih => rw [List.map_cons, List.zipWith_cons_cons, ih, add_zero]

/-- C106: indices in a box whose extents do not let the pattern carry have different numbers. -/
theorem C106_distinct (s : Shape) (h : NoCarry (s.map Dim.extent)) {i j : Index} (hi : InBox s i) (hj : InBox s j)
    (e : patternNumber i = patternNumber j) : i = j := by
  match s, i, j, hi, hj with
  | [], [], [], _, _ => rfl
  | [_], [x], [x'], _, _ => simpa [patternNumber] using e
  | [d0, d1], [x, y], [x', y'], hi, hj =>
    simp only [InBox, patternNumber, List.map_cons, List.map_nil, NoCarry] at hi hj e h
    have h1 : y = y' := by omega
    subst h1
    simp; omega
  | [d0, d1, d2], [x, y, z], [x', y', z'], hi, hj =>
    simp only [InBox, patternNumber, List.map_cons, List.map_nil, NoCarry] at hi hj e h
    have h2 : z = z' := by omega
    subst h2
    have h1 : y = y' := by omega
    subst h1
    simp; omega
  | [d0, d1, d2, d3], [x, y, z, w], [x', y', z', w'], hi, hj =>
    simp only [InBox, patternNumber, List.map_cons, List.map_nil, NoCarry] at hi hj e h
    have h3 : w = w' := by omega
    subst h3
    have h2 : z = z' := by omega
    subst h2
    have h1 : y = y' := by omega
    subst h1
    simp; omega
  | [d0, d1, d2, d3, d4], [x, y, z, w, v], [x', y', z', w', v'], hi, hj =>
    simp only [InBox, patternNumber, List.map_cons, List.map_nil, NoCarry] at hi hj e h
    have h4 : v = v' := by omega
    subst h4
    have h3 : w = w' := by omega
    subst h3
    have h2 : z = z' := by omega
    subst h2
    have h1 : y = y' := by omega
    subst h1
    simp; omega
  | _ :: _ :: _ :: _ :: _ :: _ :: _, _, _, _, _ => exact (h : False).elim

/-- C106: for two dims the condition is necessary: otherwise two indices of the box have the same number. -/
theorem C106_two_dims (d0 d1 : Dim) (h1 : 2 ≤ d1.extent) :
    (∀ i j, InBox [d0, d1] i → InBox [d0, d1] j → patternNumber i = patternNumber j → i = j) ↔ NoCarry [d0.extent, d1.extent] := by
  constructor
  · intro h
    by_contra hn
    simp only [NoCarry] at hn
    have := h [d0.min + 30, d1.min] [d0.min, d1.min + 1] ⟨by omega, by omega, trivial⟩ ⟨by omega, by omega, trivial⟩
      (by simp [patternNumber]; ring)
    simp at this
  · intro h i j hi hj e
    exact C106_distinct [d0, d1] h hi hj e

section
variable {a : ArrayRef} {b : Int}

/-- C106: `fill_pattern` stores the number of each index plus the seed in its element, and changes nothing else. -/
theorem C106_fill (hb : a.base = some b) (hn : NonNeg a.shape) (hi : Injective a.shape) (h5 : a.shape.length ≤ 5) (cast : Int → α)
    (add : α → α → α) (seed : α) (m : Mem α) :
    ∃ m', fillPattern cast add seed a m = some m' ∧
      (∀ i, InBox a.shape i → m' (b + offsetOf a.shape i) = add (cast (patternNumber i)) seed) ∧
      ∀ x, (∀ i, InBox a.shape i → x ≠ b + offsetOf a.shape i) → m' x = m x := by
  obtain ⟨m', e, h1, h2⟩ := C19_transform_index a b hb hn hi (fun i => add (cast (patternNumber i)) seed) m
  refine ⟨m', ?_, h1, h2⟩
  rw [← e]
  unfold fillPattern transformIndex
  rw [forEachIndex_eq hn]
  simp only [Option.bind_eq_bind, Option.bind_some]
  have : ∀ l : List Index, (∀ i ∈ l, i.length ≤ 5) → ∀ m : Mem α,
      l.foldlM (fun m i => (a.at_ i).bind fun p => (testPattern cast i (i.map fun _ => 0)).bind fun v =>
        pure (m.set p (add v seed))) m =
      l.foldlM (fun m i => (a.at_ i).bind fun p => pure (m.set p (add (cast (patternNumber i)) seed))) m := by
    intro l
    induction l with
    | nil => intros; rfl
    | cons i l ih =>
      intro hl m
      rw [List.foldlM_cons, List.foldlM_cons]
      have hv : testPattern cast i (i.map fun _ => 0) = some (cast (patternNumber i)) := by
        unfold testPattern
        rw [patternImpl_eq (hl i (by simp)) (by simp), zip_zero]
        rfl
      rw [hv]
      simp only [Option.bind_some]
      congr 1
      funext m'
      exact ih (fun i hi => hl i (by simp [hi])) m'
  exact this _ (fun i hi => by rw [inBox_length (mem_boxList.1 hi)]; exact h5) m

/-- C106: `check_pattern` returns exactly if each element has the number of its index plus the offset, and otherwise throws. -/
theorem C106_check [DecidableEq α] (hb : a.base = some b) (hn : NonNeg a.shape) (h5 : a.shape.length ≤ 5) (cast : Int → α)
    (offset : Index) (ho : offset.length = a.shape.length) (m : Mem α) :
    ∃ r, checkPatternRef cast a offset m = some r ∧
      (r = true ↔ ∀ i, InBox a.shape i → m (b + offsetOf a.shape i) = cast (patternNumber (List.zipWith (· + ·) i offset))) := by
  unfold checkPatternRef
  rw [forEachIndex_eq hn]
  simp only [Option.bind_eq_bind, Option.bind_some]
  have : ∀ l : List Index, (∀ i ∈ l, InBox a.shape i) → ∃ r, checkLoop cast a offset m l = some r ∧
      (r = true ↔ ∀ i ∈ l, m (b + offsetOf a.shape i) = cast (patternNumber (List.zipWith (· + ·) i offset))) := by
    intro l
    induction l with
    | nil => intro _; exact ⟨true, rfl, by simp⟩
    | cons i l ih =>
      intro hl
      obtain ⟨r, e, hr⟩ := ih fun i hi => hl i (by simp [hi])
      have hlen := inBox_length (hl i (by simp))
      have ea : a.at_ i = some (b + offsetOf a.shape i) := by
        unfold ArrayRef.at_
        rw [hb, flatOffset_eq]
        rfl
      have hv : testPattern cast i offset = some (cast (patternNumber (List.zipWith (· + ·) i offset))) := by
        unfold testPattern
        rw [patternImpl_eq (by omega) (by omega)]
        rfl
      rw [checkLoop, ea, hv]
      simp only [Option.bind_eq_bind, Option.bind_some, List.forall_mem_cons]
      split_ifs with h
      · exact ⟨r, e, by rw [hr]; simp [h]⟩
      · exact ⟨false, rfl, by simp [h]⟩
  obtain ⟨r, e, hr⟩ := this _ fun i hi => mem_boxList.1 hi
  exact ⟨r, e, hr.trans ⟨fun h i hi => h i (mem_boxList.2 hi), fun h i hi => h i (mem_boxList.1 hi)⟩⟩

/-- C106: what `fill_pattern` stores, `check_pattern` accepts. -/
theorem C106_fill_check [DecidableEq α] (hb : a.base = some b) (hn : NonNeg a.shape) (hi : Injective a.shape)
    (h5 : a.shape.length ≤ 5) (cast : Int → α) (add : α → α → α) (zero : α) (hz : ∀ v, add v zero = v) (m : Mem α) :
    ∃ m', fillPattern cast add zero a m = some m' ∧ checkPatternRef cast a (a.shape.map fun _ => 0) m' = some true := by
  obtain ⟨m', e, h1, -⟩ := C106_fill hb hn hi h5 cast add zero m
  obtain ⟨r, e', hr⟩ := C106_check hb hn h5 cast (a.shape.map fun _ => 0) (by simp) m'
  refine ⟨m', e, ?_⟩
  rw [e', hr.2 fun i hi => ?_]
  rw [h1 i hi, hz]
  have : (a.shape.map fun _ => (0 : Int)) = i.map fun _ => 0 := by
    rw [List.map_const', List.map_const', inBox_length hi]
  rw [this, zip_zero]

/-- C106: what the tests detect.  Suppose the elements of the array come from an array with the pattern, the element with index `i`
from the index `φ i`.  If both indices are always in one box whose extents do not let the pattern carry (and `T` can hold the numbers),
`check_pattern` accepts the array exactly if each element comes from its index plus the offset: every wrong copy fails the test. -/
theorem C106_detects [DecidableEq α] (hb : a.base = some b) (hn : NonNeg a.shape) (h5 : a.shape.length ≤ 5) (cast : Int → α)
    (offset : Index) (ho : offset.length = a.shape.length) (m : Mem α) (φ : Index → Index)
    (hφ : ∀ i, InBox a.shape i → m (b + offsetOf a.shape i) = cast (patternNumber (φ i)))
    (s : Shape) (hs : NoCarry (s.map Dim.extent)) (h1 : ∀ i, InBox a.shape i → InBox s (φ i))
    (h2 : ∀ i, InBox a.shape i → InBox s (List.zipWith (· + ·) i offset))
    (hc : ∀ i j, InBox s i → InBox s j → cast (patternNumber i) = cast (patternNumber j) → patternNumber i = patternNumber j) :
    checkPatternRef cast a offset m = some true ↔ ∀ i, InBox a.shape i → φ i = List.zipWith (· + ·) i offset := by
  obtain ⟨r, e, hr⟩ := C106_check hb hn h5 cast offset ho m
  rw [e, Option.some.injEq, hr]
  constructor
  · intro h i hi
    refine C106_distinct s hs (h1 i hi) (h2 i hi) (hc _ _ (h1 i hi) (h2 i hi) ?_)
    rw [← hφ i hi, h i hi]
  · intro h i hi
    rw [hφ i hi, h i hi]

/-- C106: the check after a copy: `fill_pattern(a)`, `copy(a, c)`, `check_pattern(c)` passes for all shapes that `copy` allows. -/
theorem C106_copy [DecidableEq α] {c : ArrayRef} {cb : Int} (hb : a.base = some b) (hn : NonNeg a.shape) (hi : Injective a.shape)
    (h5 : a.shape.length ≤ 5) (hcb : c.base = some cb) (hcn : NonNeg c.shape) (hci : Injective c.shape)
    (hl : List.length a.shape = c.shape.length) (hin : ∀ i, InBox c.shape i → InBox a.shape i)
    (hdis : DisjointElems a.shape b c.shape cb) (cast : Int → α) (add : α → α → α) (zero : α) (hz : ∀ v, add v zero = v) (m : Mem α) :
    ∃ m', fillPattern cast add zero a m = some m' ∧
      checkPatternRef cast c (c.shape.map fun _ => 0) (copy id a c m') = some true := by
  obtain ⟨m', e, h1, -⟩ := C106_fill hb hn hi h5 cast add zero m
  obtain ⟨r, e', hr⟩ := C106_check hcb hcn (by omega) cast (c.shape.map fun _ => 0) (by simp) (copy id a c m')
  refine ⟨m', e, ?_⟩
  rw [e', hr.2 fun i hi => ?_]
  rw [(C15_copy id a c b cb hb hcb hl hcn hin hci hdis m').1 i hi]
  show m' _ = _
  rw [h1 i (hin i hi), hz]
  have : (c.shape.map fun _ => (0 : Int)) = i.map fun _ => 0 := by
    rw [List.map_const', List.map_const', inBox_length hi]
  rw [this, zip_zero]

end

/-- C106, negative part: arrays of more than 30 columns let the pattern carry: 100x100x100 in test/performance.cpp, 100x80x3 and 40x30
with 1 to 4 channels in test/image.cpp.  A copy that exchanges the elements (30, 0, 0) and (0, 1, 0) passes the test. -/
theorem C106_blind_counterexample (w h c s0 s1 s2 : Int) (hw : 30 < w) (hh : 2 ≤ h) (hc : 1 ≤ c) (s : Shape)
    (hs : s = [⟨0, w, s0⟩, ⟨0, h, s1⟩, ⟨0, c, s2⟩]) :
    ∃ φ : Index → Index, (∀ i, φ (φ i) = i) ∧ (∀ i, InBox s i → InBox s (φ i)) ∧ InBox s [30, 0, 0] ∧ φ [30, 0, 0] = [0, 1, 0] ∧
      ∀ m : Mem Int, (∀ i, InBox s i → m (offsetOf s i) = patternNumber (φ i)) →
        checkPatternRef id ⟨some 0, s⟩ [0, 0, 0] m = some true := by
  subst hs
  refine ⟨fun i => if i = [30, 0, 0] then [0, 1, 0] else if i = [0, 1, 0] then [30, 0, 0] else i, fun i => ?_, fun i hi => ?_,
    by simp [InBox]; omega, rfl, fun m hm => ?_⟩
  · by_cases h1 : i = [30, 0, 0]
    · subst h1; rfl
    · by_cases h2 : i = [0, 1, 0]
      · subst h2; rfl
      · simp [h1, h2]
  · dsimp only
    split_ifs
    · simp [InBox]; omega
    · simp [InBox]; omega
    · exact hi
  · obtain ⟨r, e, hr⟩ := C106_check (a := ⟨some 0, [⟨0, w, s0⟩, ⟨0, h, s1⟩, ⟨0, c, s2⟩]⟩) (b := 0) rfl
      (by simp [NonNeg]; omega) (by simp) (id : Int → Int) [0, 0, 0] rfl m
    rw [e, hr.2 fun i hi => ?_]
    rw [zero_add, hm i hi]
    match i, hi with
    | [x, y, z], hi =>
      dsimp only
      split_ifs with h1 h2
      · simp only [List.cons.injEq, and_true] at h1
        obtain ⟨rfl, rfl, rfl⟩ := h1
        rfl
      · simp only [List.cons.injEq, and_true] at h2
        obtain ⟨rfl, rfl, rfl⟩ := h2
        rfl
      · simp [patternNumber]

/-- C106, negative part: with more than five dims the pattern is read past the end of its factors. -/
theorem C106_rank_counterexample [DecidableEq α] (cast : Int → α) (a : ArrayRef) (hp : Pos a.shape) (h6 : 6 ≤ a.shape.length)
    (offset : Index) (m : Mem α) : checkPatternRef cast a offset m = none := by
  unfold checkPatternRef
  rw [forEachIndex_eq hp.nonNeg]
  have hmem : a.shape.map Dim.min ∈ boxList a.shape := by
    rw [mem_boxList]
    have : ∀ s : List Dim, Pos s → InBox s (s.map Dim.min) := by
      intro s hs
      induction s with
      | nil => trivial
      | cons d s ih =>
        have := hs d (by simp)
        exact ⟨⟨le_refl _, by omega⟩, ih fun d hd => hs d (by simp [hd])⟩
    exact this _ hp
  obtain ⟨i, l, hl⟩ : ∃ i l, boxList a.shape = i :: l := by
    cases h : boxList a.shape with
    | nil => rw [h] at hmem; simp at hmem
    | cons i l => exact ⟨i, l, rfl⟩
  have hi : i.length = a.shape.length := inBox_length (mem_boxList.1 (by rw [hl]; simp))
  simp only [Option.bind_eq_bind, Option.bind_some, hl, checkLoop]
  have : testPattern cast i offset = none := by
    unfold testPattern
    rw [patternImpl_long (by simp [patternBasis]; omega)]
    rfl
  rw [this]
  cases a.at_ i <;> rfl

-- The arrays of test/array.cpp:283, test/array.cpp:443, test/split.cpp:84 and test/array_ref.cpp:222 are small enough.
example : NoCarry [4, 5, 6] ∧ NoCarry [10, 10, 10] ∧ NoCarry [8, 9, 4] ∧ NoCarry [8, 9] ∧ ¬ NoCarry [100, 80, 3] := by
  norm_num [NoCarry]

-- A copy that reads one column to the right of where it should is found.
example (m : Mem Int) (h : ∀ i, InBox [⟨0, 4, 1⟩, ⟨0, 3, 4⟩] i → m (offsetOf [⟨0, 4, 1⟩, ⟨0, 3, 4⟩] i) =
    patternNumber (List.zipWith (· + ·) i [1, 0])) : checkPatternRef id ⟨some 0, [⟨0, 4, 1⟩, ⟨0, 3, 4⟩]⟩ [0, 0] m ≠ some true := by
  intro hc
  have := (C106_detects (a := ⟨some 0, [⟨0, 4, 1⟩, ⟨0, 3, 4⟩]⟩) (b := 0) rfl (by simp [NonNeg]) (by simp) (id : Int → Int) [0, 0] rfl
    m (fun i => List.zipWith (· + ·) i [1, 0]) (fun i hi => by rw [zero_add]; exact h i hi) [⟨0, 5, 1⟩, ⟨0, 3, 5⟩] (by norm_num [NoCarry])
    (fun i hi => by
      match i, hi with
      | [x, y], hi => simp [InBox] at hi ⊢; omega)
    (fun i hi => by
      match i, hi with
      | [x, y], hi => simp [InBox] at hi ⊢; omega) (fun _ _ _ _ h => h)).1 hc [0, 0] (by simp [InBox])
  simp at this

end Nda
