import Verif.Lemmas.Algorithms
import Verif.Lemmas.Nested
/-
C14 (for_each_value), C15/C16 (copy), C17 (equal), C18 (operator==), C19 (fill, generate,
transform_index), C49 (move).
-/
namespace Nda
open Spec
variable {α : Type}

/-! ### C14 -/

/-- C14: the addresses passed to the function are, with multiplicity, the addresses of the
in-range indices. `l` is any list containing each in-range index once. -/
theorem C14_for_each_value (a : ArrayRef) (b : Int) (hb : a.base = some b) (h : NonNeg a.shape)
    (l : List Index) (hl : Enumerates a.shape l) :
    a.forEachValue.Perm (l.map fun i => b + offsetOf a.shape i) := by
  unfold ArrayRef.forEachValue
  rw [hb]
  exact (forEachValue_perm a.shape h b).trans (((boxList_enumerates a.shape).perm hl).map _)

/-- C14: consequently the function is called `size()` times, and on exactly the addresses of
in-range elements. -/
theorem C14_calls (a : ArrayRef) (b : Int) (hb : a.base = some b) (h : NonNeg a.shape) :
    a.forEachValue.length = a.shape.size ∧
    ∀ x, x ∈ a.forEachValue ↔ ∃ i, InBox a.shape i ∧ x = b + offsetOf a.shape i := by
  have hp := C14_for_each_value a b hb h _ (boxList_enumerates a.shape)
  refine ⟨?_, fun x => ?_⟩
  · rw [hp.length_eq, List.length_map, size_eq_length h (boxList_enumerates a.shape)]
  · rw [hp.mem_iff, List.mem_map]
    simp only [mem_boxList]
    exact ⟨fun ⟨i, hi, e⟩ => ⟨i, hi, e.symm⟩, fun ⟨i, hi, e⟩ => ⟨i, hi, e.symm⟩⟩

/-- C14: for an injective shape no element is visited twice. -/
theorem C14_nodup (a : ArrayRef) (b : Int) (hb : a.base = some b) (h : NonNeg a.shape)
    (hi : Injective a.shape) : a.forEachValue.Nodup := by
  rw [(C14_for_each_value a b hb h _ (boxList_enumerates a.shape)).nodup_iff]
  apply (boxList_enumerates a.shape).1.map_on
  intro i hi' j hj e
  exact hi i j (mem_boxList.1 hi') (mem_boxList.1 hj) (by omega)

/-- A planar image with padded rows and a flipped y: the x dim and the channels do not fuse, but
the loop visits the 12 elements. -/
example : (ArrayRef.mk (some 100) [⟨0, 2, 1⟩, ⟨0, 3, -4⟩, ⟨0, 2, 12⟩]).forEachValue =
    [100, 96, 92, 101, 97, 93, 112, 108, 104, 113, 109, 105] := by decide +kernel
/-- Broadcasting: stride 0 visits the same element repeatedly. -/
example : (ArrayRef.mk (some 7) [⟨0, 3, 0⟩]).forEachValue = [7, 7, 7] := by decide +kernel

/-! ### C15 -/

/-- The elements of the two arrays are different memory. -/
def Spec.DisjointElems (src : Shape) (sb : Int) (dst : Shape) (db : Int) : Prop :=
  ∀ i j, InBox src i → InBox dst j → sb + offsetOf src i ≠ db + offsetOf dst j

/-- C15: after `copy(src, dst)` every dst element holds the (converted) src element of the same
index; everything else is unchanged. -/
theorem C15_copy (conv : α → α) (src dst : ArrayRef) (sb db : Int) (hs : src.base = some sb)
    (hd : dst.base = some db) (hl : List.length src.shape = dst.shape.length)
    (hnn : NonNeg dst.shape) (hin : ∀ i, InBox dst.shape i → InBox src.shape i)
    (hinj : Injective dst.shape) (hdis : DisjointElems src.shape sb dst.shape db) (m : Mem α) :
    (∀ i, InBox dst.shape i →
      copy conv src dst m (db + offsetOf dst.shape i) = conv (m (sb + offsetOf src.shape i))) ∧
    ∀ x, (∀ i, InBox dst.shape i → x ≠ db + offsetOf dst.shape i) → copy conv src dst m x = m x := by
  have hmem := mem_copyTrace hs hd hl hnn
  refine ⟨?_, ?_⟩
  · intro i hi
    obtain ⟨p, hp, hpx, he⟩ := foldl_copy_touched conv (copyTrace src dst) m (by
      intro p hp q hq
      obtain ⟨i, hi, rfl⟩ := (hmem p).1 hp
      obtain ⟨j, hj, rfl⟩ := (hmem q).1 hq
      exact hdis i j (hin i hi) hj) (db + offsetOf dst.shape i)
      ⟨_, (hmem _).2 ⟨i, hi, rfl⟩, rfl⟩
    obtain ⟨j, hj, rfl⟩ := (hmem p).1 hp
    have : j = i := hinj j i hj hi (by simpa using hpx)
    subst this
    exact he
  · intro x hx
    apply foldl_copy_untouched
    intro p hp e
    obtain ⟨i, hi, rfl⟩ := (hmem p).1 hp
    exact hx i hi e.symm

/-- C15 without injectivity: a dst element shared by several indices ends up with the src element
of one of them. -/
theorem C15_copy_aliased (conv : α → α) (src dst : ArrayRef) (sb db : Int) (hs : src.base = some sb)
    (hd : dst.base = some db) (hl : List.length src.shape = dst.shape.length)
    (hnn : NonNeg dst.shape) (hin : ∀ i, InBox dst.shape i → InBox src.shape i)
    (hdis : DisjointElems src.shape sb dst.shape db) (m : Mem α) (i : Index)
    (hi : InBox dst.shape i) :
    ∃ j, InBox dst.shape j ∧ offsetOf dst.shape j = offsetOf dst.shape i ∧
      copy conv src dst m (db + offsetOf dst.shape i) = conv (m (sb + offsetOf src.shape j)) := by
  have hmem := mem_copyTrace hs hd hl hnn
  obtain ⟨p, hp, hpx, he⟩ := foldl_copy_touched conv (copyTrace src dst) m (by
    intro p hp q hq
    obtain ⟨i, hi, rfl⟩ := (hmem p).1 hp
    obtain ⟨j, hj, rfl⟩ := (hmem q).1 hq
    exact hdis i j (hin i hi) hj) (db + offsetOf dst.shape i)
    ⟨_, (hmem _).2 ⟨i, hi, rfl⟩, rfl⟩
  obtain ⟨j, hj, rfl⟩ := (hmem p).1 hp
  exact ⟨j, hj, by simpa using hpx, he⟩

/-- C15: only elements of the two arrays are read and written. -/
theorem C15_footprint (src dst : ArrayRef) (sb db : Int) (hs : src.base = some sb)
    (hd : dst.base = some db) (hl : List.length src.shape = dst.shape.length)
    (hnn : NonNeg dst.shape) (hin : ∀ i, InBox dst.shape i → InBox src.shape i) (p : Int × Int)
    (hp : p ∈ copyTrace src dst) :
    (∃ i, InBox src.shape i ∧ p.1 = sb + offsetOf src.shape i) ∧
    ∃ i, InBox dst.shape i ∧ p.2 = db + offsetOf dst.shape i := by
  obtain ⟨i, hi, rfl⟩ := (mem_copyTrace hs hd hl hnn p).1 hp
  exact ⟨⟨i, hin i hi, rfl⟩, ⟨i, hi, rfl⟩⟩

/-- Copying the 2x2 crop at (1,1) of a 3x3 row-major source into a flipped, transposed
destination. -/
example (m : Mem Int) :
    copy id ⟨some 0, [⟨0, 3, 1⟩, ⟨0, 3, 3⟩]⟩ ⟨some 103, [⟨1, 2, -2⟩, ⟨1, 2, -1⟩]⟩ m 101 = m 5 ∧
    copy id ⟨some 0, [⟨0, 3, 1⟩, ⟨0, 3, 3⟩]⟩ ⟨some 103, [⟨1, 2, -2⟩, ⟨1, 2, -1⟩]⟩ m 104 = m 104 := by
  have hb : ∀ i, InBox [⟨1, 2, -2⟩, ⟨1, 2, -1⟩] i →
      ∃ x y, i = [x, y] ∧ (1 ≤ x ∧ x < 3) ∧ (1 ≤ y ∧ y < 3) := by
    intro i hi
    obtain ⟨x, i', rfl, hx, hi'⟩ := inBox_cons_iff.1 hi
    obtain ⟨y, i'', rfl, hy, hi''⟩ := inBox_cons_iff.1 hi'
    rw [inBox_nil] at hi''; subst hi''
    exact ⟨x, y, rfl, hx, hy⟩
  have h := C15_copy (id : Int → Int) ⟨some 0, [⟨0, 3, 1⟩, ⟨0, 3, 3⟩]⟩
    ⟨some 103, [⟨1, 2, -2⟩, ⟨1, 2, -1⟩]⟩ 0 103 rfl rfl rfl (by simp [NonNeg])
    (by
      intro i hi
      obtain ⟨x, y, rfl, hx, hy⟩ := hb i hi
      simp [InBox]; omega)
    (injective_of_nested (by simp [Nested, span]) (by simp [Moving]))
    (by
      intro i j hi hj
      obtain ⟨u, i', rfl, hu, hi'⟩ := inBox_cons_iff.1 hi
      obtain ⟨v, i'', rfl, hv, hi''⟩ := inBox_cons_iff.1 hi'
      rw [inBox_nil] at hi''; subst hi''
      obtain ⟨x, y, rfl, hx, hy⟩ := hb j hj
      simp only [] at hu hv
      simp only [offsetOf]; omega) m
  refine ⟨h.1 [2, 1] (by simp [InBox]), h.2 104 ?_⟩
  intro i hi
  obtain ⟨x, y, rfl, hx, hy⟩ := hb i hi
  simp only [offsetOf]; omega

/-! ### C16 -/

/-- C16: for a non-empty `dst` the debug check of `copy()` and `move()` is exactly containment of
the index sets. -/
theorem C16_assert_iff (src dst : Shape) (hl : List.length src = dst.length) (hp : Pos dst) :
    copyAssert src dst = true ↔ ∀ i, InBox dst i → InBox src i := by
  have hne : dst.empty = false := by
    rw [← Bool.not_eq_true, empty_iff_not_pos hp.nonNeg]; exact fun h => h hp
  unfold copyAssert
  rw [hne, Bool.false_or, Bool.and_eq_true]
  have hlm : src.length = (Shape.mins dst).length := by simp [Shape.mins, hl]
  have hlM : src.length = (Shape.maxs dst).length := by simp [Shape.maxs, hl]
  rw [isInRange_iff _ _ hlm.symm, isInRange_iff _ _ hlM.symm]
  unfold Shape.mins Shape.maxs
  clear hne hlm hlM
  induction dst generalizing src with
  | nil =>
    cases src with
    | nil => simp [InBox]
    | cons _ _ => simp at hl
  | cons d ds ih =>
    cases src with
    | nil => simp at hl
    | cons e es =>
      obtain ⟨hd, hds⟩ := pos_cons.1 hp
      have := ih es (by simpa using hl) hds
      constructor
      · rintro ⟨h1, h2⟩ i hi
        obtain ⟨x, i', rfl, hx, hi'⟩ := inBox_cons_iff.1 hi
        simp only [List.map_cons] at h1 h2
        have a1 := h1.1; have a2 := h2.1
        unfold Dim.max at a2
        exact ⟨by omega, this.1 ⟨h1.2, h2.2⟩ i' hi'⟩
      · intro h
        have h1 := h _ (inBox_mins hp)
        have hM : InBox (d :: ds) ((d :: ds).map Dim.max) := by
          clear this h h1 ih hl
          generalize d :: ds = l at hp
          induction l with
          | nil => trivial
          | cons x l ihl =>
            obtain ⟨hx, hl⟩ := pos_cons.1 hp
            exact ⟨by unfold Dim.max; omega, ihl hl⟩
        exact ⟨h1, h _ hM⟩

/-- C16: copying (or moving) to an empty `dst` does nothing, whatever `src` is. -/
theorem C16_empty_noop (conv moved : α → α) (src dst : ArrayRef) (h : NonNeg dst.shape)
    (he : ¬ Pos dst.shape) (m : Mem α) :
    copy conv src dst m = m ∧ move conv moved src dst m = m ∧
      copyAssert src.shape dst.shape = true := by
  have : dst.shape.empty = true := (empty_iff_not_pos h).2 he
  unfold copy move copyTrace copyAssert
  rw [this]
  exact ⟨rfl, rfl, rfl⟩

example : copyAssert [⟨-1, 4, 1⟩, ⟨0, 3, 4⟩] [⟨0, 3, 1⟩, ⟨1, 2, 3⟩] = true := by decide +kernel
example : copyAssert [⟨-1, 4, 1⟩, ⟨0, 3, 4⟩] [⟨0, 4, 1⟩, ⟨1, 2, 4⟩] = false := by decide +kernel

/-! ### C17 -/

/-- C17: `equal` is true exactly when the index sets are described by the same mins and extents
and no in-range pair of elements differs.  With a null base the array must be empty (the
assertion of the loop). -/
theorem C17_equal (ne : α → α → Bool) (m : Mem α) (a b : ArrayRef) (hnn : NonNeg b.shape)
    (hb : (∃ x y, a.base = some x ∧ b.base = some y) ∨ ¬ Pos b.shape) :
    equal ne m a b = true ↔
      a.shape.map Dim.min = b.shape.map Dim.min ∧ a.shape.map Dim.extent = b.shape.map Dim.extent ∧
      ∀ i x y, InBox a.shape i → a.base = some x → b.base = some y →
        ne (m (x + offsetOf a.shape i)) (m (y + offsetOf b.shape i)) = false := by
  unfold equal Shape.mins Shape.extents
  by_cases hshape : a.shape.map Dim.min = b.shape.map Dim.min ∧
      a.shape.map Dim.extent = b.shape.map Dim.extent
  swap
  · rw [if_pos (by tauto)]; simp; tauto
  rw [if_neg (by tauto)]
  obtain ⟨hm, he⟩ := hshape
  have hl : List.length a.shape = b.shape.length := by
    have := congrArg List.length hm; simpa using this
  have hbox : ∀ i, InBox a.shape i ↔ InBox b.shape i := by
    have : ∀ (s t : List Dim), s.map Dim.min = t.map Dim.min → s.map Dim.extent = t.map Dim.extent →
        ∀ i, InBox s i → InBox t i := by
      intro s
      induction s with
      | nil => intro t h1 _ i hi; cases t with
        | nil => exact hi
        | cons _ _ => simp at h1
      | cons d s ih =>
        intro t h1 h2 i hi
        cases t with
        | nil => simp at h1
        | cons e t =>
          simp only [List.map_cons, List.cons.injEq] at h1 h2
          obtain ⟨x, i', rfl, hx, hi'⟩ := inBox_cons_iff.1 hi
          exact ⟨by omega, ih t h1.2 h2.2 i' hi'⟩
    exact fun i => ⟨this _ _ hm he i, this _ _ hm.symm he.symm i⟩
  rw [foldl_all (fun p : Int × Int => ne (m p.1) (m p.2))]
  simp only [true_and, hm, he]
  rcases hb with ⟨x, y, hx, hy⟩ | hemp
  · rw [hx, hy]
    simp only [mem_copyForEachValue hl hnn]
    constructor
    · intro h i x' y' hi hx' hy'
      cases hx'; cases hy'
      exact h _ ⟨i, (hbox i).1 hi, rfl⟩
    · rintro h p ⟨i, hi, rfl⟩
      exact h i x y ((hbox i).2 hi) rfl rfl
  · have htr : copyForEachValue a.shape a.base b.shape b.base = [] := by
      rw [List.eq_nil_iff_forall_not_mem]
      intro p hp
      cases hx : a.base with
      | none => rw [hx] at hp; simp [copyForEachValue, Shape.forEachValueInOrder2] at hp
      | some x =>
        cases hy : b.base with
        | none => rw [hx, hy] at hp; simp [copyForEachValue, Shape.forEachValueInOrder2] at hp
        | some y =>
          rw [hx, hy, mem_copyForEachValue hl hnn] at hp
          obtain ⟨i, hi, _⟩ := hp
          exact hemp (pos_of_inBox hi)
    rw [htr]
    simp only [List.not_mem_nil, false_implies, implies_true, true_iff]
    intro i x y hi
    exact absurd (pos_of_inBox ((hbox i).1 hi)) hemp

/-- Row-major and column-major copies of the same 2x2 matrix are equal; a changed element is
noticed. -/
example : equal (fun a b => a != b) (fun x => if x = 11 then (2 : Int) else if x = 12 then 1 else
      if x ≥ 10 then x - 10 else x) ⟨some 0, [⟨0, 2, 1⟩, ⟨0, 2, 2⟩]⟩ ⟨some 10, [⟨0, 2, 2⟩, ⟨0, 2, 1⟩]⟩ =
    true := by decide +kernel
example : equal (fun a b => a != b) (fun x => if x = 11 then (9 : Int) else if x = 12 then 1 else
      if x ≥ 10 then x - 10 else x) ⟨some 0, [⟨0, 2, 1⟩, ⟨0, 2, 2⟩]⟩ ⟨some 10, [⟨0, 2, 2⟩, ⟨0, 2, 1⟩]⟩ =
    false := by decide +kernel

/-! ### C18 -/

/-- C18: `==` on array_refs compares mins, extents, strides and contents, and `!=` is its
negation. -/
theorem C18_operator_eq (ne : α → α → Bool) (m : Mem α) (a b : ArrayRef) (hnn : NonNeg a.shape)
    (hb : (∃ x y, a.base = some x ∧ b.base = some y) ∨ ¬ Pos a.shape) :
    (a.eq ne m b = true ↔ a.shape = b.shape ∧
      ∀ i x y, InBox a.shape i → a.base = some x → b.base = some y →
        ne (m (x + offsetOf a.shape i)) (m (y + offsetOf b.shape i)) = false) ∧
    a.ne ne m b = !(a.eq ne m b) := by
  refine ⟨?_, by simp [ArrayRef.eq]⟩
  unfold ArrayRef.eq ArrayRef.ne
  by_cases hs : a.shape = b.shape
  swap
  · rw [if_pos hs]; simp [hs]
  rw [if_neg (by simpa using hs)]
  have h17 := C17_equal ne m a b (by rw [← hs]; exact hnn) (by rw [← hs]; exact hb)
  unfold equal at h17
  rw [if_neg (by simp [hs]), foldl_all (fun p : Int × Int => ne (m p.1) (m p.2))] at h17
  rw [Bool.not_eq_true', ← Bool.not_eq_true, foldl_any (fun p : Int × Int => ne (m p.1) (m p.2))]
  simp only [hs, true_and, Bool.false_eq_true, false_or] at h17 ⊢
  rw [← h17]
  constructor
  · intro h p hp; by_contra hc; exact h ⟨p, hp, by simpa using hc⟩
  · rintro h ⟨p, hp, hc⟩; rw [h p hp] at hc; cases hc

/-- Same contents, different strides: `equal` but not `==`. -/
example : ArrayRef.eq (fun a b => a != b) (fun _ => (5 : Int)) ⟨some 0, [⟨0, 3, 1⟩]⟩
    ⟨some 10, [⟨0, 3, 2⟩]⟩ = false := by decide +kernel
example : ArrayRef.eq (fun a b => a != b) (fun _ => (5 : Int)) ⟨some 0, [⟨0, 3, 1⟩, ⟨0, 2, 3⟩]⟩
    ⟨some 10, [⟨0, 3, 1⟩, ⟨0, 2, 3⟩]⟩ = true := by decide +kernel

/-! ### C19 -/

/-- C19: `fill` sets exactly the in-range elements. -/
theorem C19_fill (dst : ArrayRef) (b : Int) (hb : dst.base = some b) (h : NonNeg dst.shape)
    (v : α) (m : Mem α) :
    (∀ i, InBox dst.shape i → fill dst v m (b + offsetOf dst.shape i) = v) ∧
    ∀ x, (∀ i, InBox dst.shape i → x ≠ b + offsetOf dst.shape i) → fill dst v m x = m x := by
  have hm := (C14_calls dst b hb h).2
  unfold fill
  refine ⟨fun i hi => ?_, fun x hx => ?_⟩
  · rw [foldl_set_const, if_pos ((hm _).2 ⟨i, hi, rfl⟩)]
  · rw [foldl_set_const, if_neg]
    rw [hm]; rintro ⟨i, hi, e⟩; exact hx i hi e

/-- The first `n` results of a stateful generator, and its state afterwards. -/
def Spec.genResults {α σ : Type} (g : σ → α × σ) : Nat → σ → List α × σ
  | 0, s => ([], s)
  | n + 1, s => let r := Spec.genResults g n (g s).2; ((g s).1 :: r.1, r.2)

theorem genResults_length {σ : Type} (g : σ → α × σ) (n : Nat) (s : σ) :
    (genResults g n s).1.length = n := by
  induction n generalizing s with
  | zero => rfl
  | succ n ih => simp [genResults, ih]

theorem generate_fold {σ : Type} (g : σ → α × σ) (tr : List Int) (s : σ) (m : Mem α) :
    (tr.foldl (fun st a => let r := g st.1; (r.2, st.2.set a r.1)) (s, m)).1 =
      (genResults g tr.length s).2 ∧
    (tr.Nodup → ∀ (k : Nat) x, tr[k]? = some x →
      (genResults g tr.length s).1[k]? =
        some ((tr.foldl (fun st a => let r := g st.1; (r.2, st.2.set a r.1)) (s, m)).2 x)) ∧
    ∀ x, x ∉ tr → (tr.foldl (fun st a => let r := g st.1; (r.2, st.2.set a r.1)) (s, m)).2 x = m x := by
  induction tr generalizing s m with
  | nil => exact ⟨rfl, by simp, by simp⟩
  | cons a tr ih =>
    simp only [List.foldl_cons]
    obtain ⟨h1, h2, h3⟩ := ih (g s).2 (m.set a (g s).1)
    refine ⟨h1, ?_, ?_⟩
    · intro hn k x hx
      rw [List.nodup_cons] at hn
      cases k with
      | zero =>
        simp only [List.getElem?_cons_zero, Option.some.injEq] at hx
        subst hx
        rw [h3 a hn.1, Mem.set_same]
        rfl
      | succ k =>
        rw [List.getElem?_cons_succ] at hx
        have := h2 hn.2 k x hx
        simpa [genResults] using this
    · intro x hx
      rw [h3 x (by simp at hx; tauto), Mem.set_other]
      simp at hx; tauto

/-- C19: `generate` calls the generator exactly `size()` times (final state), stores the k-th
result at the k-th address of the `for_each_value` order, and touches nothing else. -/
theorem C19_generate {σ : Type} (dst : ArrayRef) (b : Int) (hb : dst.base = some b)
    (h : NonNeg dst.shape) (hi : Injective dst.shape) (g : σ → α × σ) (s : σ) (m : Mem α) :
    (generate dst g (s, m)).1 = (genResults g dst.shape.size s).2 ∧
    (∀ (k : Nat) x, dst.forEachValue[k]? = some x →
      (genResults g dst.shape.size s).1[k]? = some ((generate dst g (s, m)).2 x)) ∧
    ∀ x, (∀ i, InBox dst.shape i → x ≠ b + offsetOf dst.shape i) →
      (generate dst g (s, m)).2 x = m x := by
  obtain ⟨hlen, hmem⟩ := C14_calls dst b hb h
  obtain ⟨h1, h2, h3⟩ := generate_fold g dst.forEachValue s m
  rw [hlen] at h1 h2
  refine ⟨h1, h2 (C14_nodup dst b hb h hi), ?_⟩
  intro x hx
  apply h3
  rw [hmem]; rintro ⟨i, hi, e⟩; exact hx i hi e

theorem foldlM_some_set (f : Index → Int) (fn : Index → α) (at_ : Index → Option Int)
    (l : List Index) (hat : ∀ i ∈ l, at_ i = some (f i)) (m : Mem α) :
    l.foldlM (fun m i => do let a ← at_ i; pure (m.set a (fn i))) m =
      some (l.foldl (fun m i => m.set (f i) (fn i)) m) := by
  induction l generalizing m with
  | nil => rfl
  | cons i l ih =>
    rw [List.foldlM_cons, hat i (by simp)]
    exact ih (fun j hj => hat j (by simp [hj])) _

theorem foldl_set_fn (f : Index → Int) (fn : Index → α) (l : List Index) (m : Mem α) :
    ((∀ i ∈ l, ∀ j ∈ l, f i = f j → i = j) →
      ∀ i ∈ l, l.foldl (fun m i => m.set (f i) (fn i)) m (f i) = fn i) ∧
    ∀ x, (∀ i ∈ l, x ≠ f i) → l.foldl (fun m i => m.set (f i) (fn i)) m x = m x := by
  induction l generalizing m with
  | nil => simp
  | cons a l ih =>
    obtain ⟨h1, h2⟩ := ih (m.set (f a) (fn a))
    refine ⟨?_, ?_⟩
    · intro hinj i hi
      rw [List.foldl_cons]
      by_cases hil : i ∈ l
      · exact h1 (fun p hp q hq => hinj p (by simp [hp]) q (by simp [hq])) i hil
      · have hia : i = a := by
          rcases List.mem_cons.1 hi with h | h
          · exact h
          · exact absurd h hil
        subst hia
        rw [h2, Mem.set_same]
        intro j hj e
        have := hinj i (by simp) j (by simp [hj]) e
        subst this; exact hil hj
    · intro x hx
      rw [List.foldl_cons, h2 x (fun i hi => hx i (by simp [hi]))]
      exact Mem.set_other _ _ (hx a (by simp))

/-- C19: `transform_index` (and `transform_indices`, which unpacks the tuple) stores `fn(i)` at
every in-range `i` and touches nothing else. -/
theorem C19_transform_index (dst : ArrayRef) (b : Int) (hb : dst.base = some b)
    (h : NonNeg dst.shape) (hi : Injective dst.shape) (fn : Index → α) (m : Mem α) :
    ∃ m', transformIndex dst fn m = some m' ∧
      (∀ i, InBox dst.shape i → m' (b + offsetOf dst.shape i) = fn i) ∧
      ∀ x, (∀ i, InBox dst.shape i → x ≠ b + offsetOf dst.shape i) → m' x = m x := by
  refine ⟨(boxList dst.shape).foldl (fun m i => m.set (b + offsetOf dst.shape i) (fn i)) m,
    ?_, ?_, ?_⟩
  · unfold transformIndex
    rw [forEachIndex_eq h]
    exact foldlM_some_set (fun i => b + offsetOf dst.shape i) fn _ _ (fun i _ => by
      unfold ArrayRef.at_; rw [hb, flatOffset_eq]; rfl) m
  · intro i hi'
    exact (foldl_set_fn (fun i => b + offsetOf dst.shape i) fn _ m).1 (by
      intro p hp q hq e
      exact hi p q (mem_boxList.1 hp) (mem_boxList.1 hq) (by omega)) i (mem_boxList.2 hi')
  · intro x hx
    exact (foldl_set_fn (fun i => b + offsetOf dst.shape i) fn _ m).2 x
      (fun i hi' => hx i (mem_boxList.1 hi'))

example : fill ⟨some 10, [⟨0, 2, 1⟩, ⟨0, 2, 4⟩]⟩ (7 : Int) (fun x => x) 15 = 7 ∧
    fill ⟨some 10, [⟨0, 2, 1⟩, ⟨0, 2, 4⟩]⟩ (7 : Int) (fun x => x) 12 = 12 := by decide +kernel
/-- Counting generator: the loop order is by increasing stride. -/
example : (generate ⟨some 10, [⟨0, 2, 4⟩, ⟨0, 2, 1⟩]⟩ (fun s : Int => (s, s + 1)) (0, fun x => x)).2 11 = 1 ∧
    (generate ⟨some 10, [⟨0, 2, 4⟩, ⟨0, 2, 1⟩]⟩ (fun s : Int => (s, s + 1)) (0, fun x => x)).1 = 4 := by
  decide +kernel
example (m : Mem Int) : ∃ m', transformIndex ⟨some 10, [⟨5, 2, 1⟩, ⟨0, 3, -2⟩]⟩
    (fun i => i.sum) m = some m' ∧ m' 7 = 8 := by
  obtain ⟨m', h1, h2, _⟩ := C19_transform_index ⟨some 10, [⟨5, 2, 1⟩, ⟨0, 3, -2⟩]⟩ 10 rfl
    (by simp [NonNeg]) (injective_of_nested (by simp [Nested, span]) (by simp [Moving]))
    (fun i => i.sum) m
  exact ⟨m', h1, h2 [6, 2] (by simp [InBox])⟩

/-! ### C49 -/

/-- C49: after `move(src, dst)` each dst element holds the value the src element had, each src
element read is in the moved-from state, and nothing else changes; src must not alias itself on
the indices of dst. -/
theorem C49_move (conv moved : α → α) (src dst : ArrayRef) (sb db : Int) (hs : src.base = some sb)
    (hd : dst.base = some db) (hl : List.length src.shape = dst.shape.length)
    (hnn : NonNeg dst.shape) (hin : ∀ i, InBox dst.shape i → InBox src.shape i)
    (hinj : Injective dst.shape) (hinjs : Injective src.shape)
    (hdis : DisjointElems src.shape sb dst.shape db) (m : Mem α) :
    (∀ i, InBox dst.shape i →
      move conv moved src dst m (db + offsetOf dst.shape i) = conv (m (sb + offsetOf src.shape i)) ∧
      move conv moved src dst m (sb + offsetOf src.shape i) = moved (m (sb + offsetOf src.shape i))) ∧
    ∀ x, (∀ i, InBox dst.shape i →
        x ≠ db + offsetOf dst.shape i ∧ x ≠ sb + offsetOf src.shape i) →
      move conv moved src dst m x = m x := by
  have hmem := mem_copyTrace hs hd hl hnn
  have hperm := copyTrace_perm hs hd hl hnn
  have hnd := (boxList_enumerates dst.shape).1
  obtain ⟨h1, h2⟩ := foldl_move_spec conv moved (copyTrace src dst) m (by
      intro p hp q hq
      obtain ⟨i, hi, rfl⟩ := (hmem p).1 hp
      obtain ⟨j, hj, rfl⟩ := (hmem q).1 hq
      exact hdis i j (hin i hi) hj)
    (by
      rw [(hperm.map Prod.fst).nodup_iff, List.map_map]
      apply hnd.map_on
      intro i hi j hj e
      exact hinjs i j (hin i (mem_boxList.1 hi)) (hin j (mem_boxList.1 hj)) (by simpa using e))
    (by
      rw [(hperm.map Prod.snd).nodup_iff, List.map_map]
      apply hnd.map_on
      intro i hi j hj e
      exact hinj i j (mem_boxList.1 hi) (mem_boxList.1 hj) (by simpa using e))
  refine ⟨?_, ?_⟩
  · intro i hi
    exact h1 _ ((hmem _).2 ⟨i, hi, rfl⟩)
  · intro x hx
    apply h2
    intro p hp
    obtain ⟨i, hi, rfl⟩ := (hmem p).1 hp
    exact ⟨(hx i hi).2.symm, (hx i hi).1.symm⟩

/-- C49: moving from a broadcast (stride 0) source is different from copying: the second dst
element receives the moved-from value. -/
theorem C49_move_broadcast_counterexample :
    ∃ (src dst : ArrayRef) (m : Mem Nat), Injective dst.shape ∧
      (∀ i, InBox dst.shape i → InBox src.shape i) ∧
      move id (fun _ => 0) src dst m ≠ copy id src dst m ∧
      move id (fun _ => 0) src dst m 11 = 0 ∧ copy id src dst m 11 = 5 := by
  refine ⟨⟨some 0, [⟨0, 2, 0⟩]⟩, ⟨some 10, [⟨0, 2, 1⟩]⟩, fun _ => 5, ?_, ?_, ?_, by decide +kernel, by decide +kernel⟩
  · exact injective_of_nested (by simp) (by simp [Moving])
  · intro i hi
    obtain ⟨x, i', rfl, hx, hi'⟩ := inBox_cons_iff.1 hi
    exact ⟨hx, hi'⟩
  · intro h
    exact absurd (congrFun h 11) (by decide +kernel)

example (m : Mem Nat) : move id (fun _ => 0) ⟨some 0, [⟨0, 3, 1⟩]⟩ ⟨some 10, [⟨1, 2, 1⟩]⟩ m 11 = m 2 := by
  refine ((C49_move id (fun _ => 0) ⟨some 0, [⟨0, 3, 1⟩]⟩ ⟨some 10, [⟨1, 2, 1⟩]⟩ 0 10 rfl rfl rfl
    (by simp [NonNeg]) ?_ (injective_of_nested (by simp) (by simp [Moving]))
    (injective_of_nested (by simp) (by simp [Moving])) ?_ m).1 [2] (by simp [InBox])).1
  · intro i hi
    obtain ⟨x, i', rfl, hx, hi'⟩ := inBox_cons_iff.1 hi
    exact ⟨by simp at hx ⊢; omega, hi'⟩
  · intro i j hi hj
    obtain ⟨x, i', rfl, hx, hi'⟩ := inBox_cons_iff.1 hi
    obtain ⟨y, j', rfl, hy, hj'⟩ := inBox_cons_iff.1 hj
    rw [inBox_nil] at hi' hj'; subst hi'; subst hj'
    simp only [] at hx hy
    simp only [offsetOf]; omega

end Nda
