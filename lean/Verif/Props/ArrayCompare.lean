import Verif.Model.ArrayCompare
import Verif.Props.MakeCopy
import Verif.Lemmas.ArrayViews
/-
C69: comparing arrays of a program, and what comparisons give after copies, moves, writes, swaps and reshapes.
-/
namespace Nda
open Spec

variable {V : Type}

/-- The loop of a comparison over readable elements. -/
theorem compare_loop (ne : V → V → Bool) (r : Bool) (w : World V) (bs bt : Nat) (l : List (Int × Int))
    (h : ∀ k ∈ l, (∃ u, readAt w bs k.1 = .ok u) ∧ ∃ v, readAt w bt k.2 = .ok v) (res : Bool) :
    ∃ res', l.foldlM (fun result k => do
        let u ← readAt w bs k.1
        let v ← readAt w bt k.2
        .ok (if ne u v then r else result)) res = (.ok res' : Except Fault Bool) ∧
      (res' = !r ↔ res = !r ∧
        ∀ k ∈ l, ∀ u v, readAt w bs k.1 = .ok u → readAt w bt k.2 = .ok v → ne u v = false) := by
  induction l generalizing res with
  | nil => exact ⟨res, rfl, by simp⟩
  | cons k l ih =>
    obtain ⟨⟨u, hu⟩, v, hv⟩ := h k (by simp)
    obtain ⟨res', e, hr⟩ := ih (fun k hk => h k (by simp [hk])) (if ne u v then r else res)
    refine ⟨res', ?_, ?_⟩
    · rw [List.foldlM_cons]
      simp only [hu, hv, bind, Except.bind]
      exact e
    · rw [hr]
      constructor
      · rintro ⟨h1, h2⟩
        have hne : ne u v = false := by
          by_contra hc
          rw [if_pos (by simpa using hc)] at h1
          cases r <;> simp at h1
        rw [hne] at h1
        refine ⟨by simpa using h1, ?_⟩
        intro k' hk' u' v' hu' hv'
        rcases List.mem_cons.1 hk' with rfl | hk'
        · rw [hu] at hu'; rw [hv] at hv'
          simp only [Except.ok.injEq] at hu' hv'
          subst hu' hv'
          exact hne
        · exact h2 k' hk' u' v' hu' hv'
      · rintro ⟨h1, h2⟩
        refine ⟨?_, fun k' hk' => h2 k' (by simp [hk'])⟩
        rw [h2 k (by simp) u v hu hv]
        simpa using h1

/-- Comparing two views over the same indices. -/
theorem compareValues_ok {ty : Types V} {w : World V} (hI : Inv ty w) {x y : Nat} {a o : Arr} (ha : w.vars x = some a)
    (ho : w.vars y = some o) {s t : Shape} {soff toff : Int} (hs : PartOk a s soff) (ht : PartOk o t toff)
    (hl : List.length s = List.length t) (hbox : ∀ i, InBox t i → InBox s i) (ne : V → V → Bool) (r : Bool) :
    ∃ res, compareValues ty ne r s (a.base.map fun p => (p.1, p.2 + soff)) t (o.base.map fun p => (p.1, p.2 + toff)) w
        (!r) = .ok res ∧
      (res = !r ↔ ∀ i, InBox t i → ∀ u v, refElem w x s soff i = .ok u → refElem w y t toff i = .ok v → ne u v = false) := by
  by_cases hnull : a.base = none ∨ o.base = none
  · have hemp : ¬ Pos t := by
      intro hp
      obtain ⟨i, hi⟩ := exists_inBox_iff.2 hp
      rcases hnull with h | h
      · exact (hs.sub i (hbox i hi)).1 h
      · exact (ht.sub i hi).1 h
    have hn := forEachPair_null (w := w) ty (fun _ _ _ w => .ok w) (s := s) (d := t) (p := a.base.map fun p => (p.1, p.2 + soff))
      (q := o.base.map fun p => (p.1, p.2 + toff)) (by rcases hnull with h | h <;> simp [h]) hl
      (fun _ => (empty_iff_not_pos ht.nonNeg).2 hemp)
    refine ⟨!r, ?_, ?_⟩
    · unfold compareValues
      unfold forEachPair at hn
      split
      · rename_i h1 h2
        rcases hnull with h | h <;> simp [h] at h1 h2
      · rename_i h1
        split at hn
        · rename_i h3 h4
          exact absurd h4 (h1 _ _ _ _ h3)
        · rw [hn]
          rfl
    · refine ⟨fun _ i hi => absurd (pos_of_inBox hi) hemp, fun _ => rfl⟩
  · push Not at hnull
    obtain ⟨⟨ba, pa⟩, hba⟩ := Option.ne_none_iff_exists'.1 hnull.1
    obtain ⟨⟨bo, po⟩, hbo⟩ := Option.ne_none_iff_exists'.1 hnull.2
    have hra : ∀ i, refElem w x s soff i = readAt w ba (pa + soff + offsetOf s i) := by
      intro i
      unfold refElem
      rw [get_ok ha, bind_ok, hba, flatOffset_eq]
    have hro : ∀ i, refElem w y t toff i = readAt w bo (po + toff + offsetOf t i) := by
      intro i
      unfold refElem
      rw [get_ok ho, bind_ok, hbo, flatOffset_eq]
    have hmem := fun k => mem_copyForEachValue hl ht.nonNeg (pa + soff) (po + toff) k
    obtain ⟨res, e, hr⟩ := compare_loop ne r w ba bo (copyForEachValue s (some (pa + soff)) t (some (po + toff))) (by
      intro k hk
      obtain ⟨i, hi, rfl⟩ := (hmem k).1 hk
      obtain ⟨u, hu⟩ := refElem_ok hI ha (hs.sub i (hbox i hi))
      obtain ⟨v, hv⟩ := refElem_ok hI ho (ht.sub i hi)
      rw [hra] at hu
      rw [hro] at hv
      exact ⟨⟨u, hu⟩, v, hv⟩) (!r)
    refine ⟨res, ?_, ?_⟩
    · rw [hba, hbo]
      exact e
    · rw [hr]
      simp only [true_and]
      constructor
      · intro h i hi u v hu hv
        rw [hra] at hu
        rw [hro] at hv
        exact h _ ((hmem _).2 ⟨i, hi, rfl⟩) u v hu hv
      · intro h k hk u v hu hv
        obtain ⟨i, hi, rfl⟩ := (hmem k).1 hk
        exact h i hi u v (by rw [hra]; exact hu) (by rw [hro]; exact hv)

/-- Equal mins and extents: the same indices. -/
theorem inBox_of_same {s t : List Dim} (h1 : s.map Dim.min = t.map Dim.min) (h2 : s.map Dim.extent = t.map Dim.extent)
    (i : Index) (hi : InBox s i) : InBox t i := by
  induction s generalizing t i with
  | nil =>
    cases t with
    | nil => exact hi
    | cons _ _ => simp at h1
  | cons d s ih =>
    cases t with
    | nil => simp at h1
    | cons e t =>
      simp only [List.map_cons, List.cons.injEq] at h1 h2
      obtain ⟨x, i', rfl, hx, hi'⟩ := inBox_cons_iff.1 hi
      exact ⟨by omega, ih h1.2 h2.2 i' hi'⟩

/-- C69: `==` of two views of arrays terminates without touching anything but elements of the views, which stay as they
are, and is true exactly if the shapes are equal and no elements at the same index differ; `!=` is its negation. -/
theorem C69_eq_views (ty : Types V) (hdef : TypesOk ty) (w : World V) (hw : Reachable ty w) (x y : Nat) (a o : Arr)
    (ha : w.vars x = some a) (ho : w.vars y = some o) (s t : Shape) (soff toff : Int) (hs : PartOk a s soff)
    (ht : PartOk o t toff) (ne : V → V → Bool) :
    ∃ r, refsEq ty ne x s soff y t toff w = .ok r ∧ refsNe ty ne x s soff y t toff w = .ok (!r) ∧
      (r = true ↔ s = t ∧
        ∀ i, InBox s i → ∀ u v, refElem w x s soff i = .ok u → refElem w y t toff i = .ok v → ne u v = false) := by
  have hI := hw.inv hdef
  have hne : ∃ r, refsNe ty ne x s soff y t toff w = .ok r ∧ (r = false ↔ s = t ∧
        ∀ i, InBox s i → ∀ u v, refElem w x s soff i = .ok u → refElem w y t toff i = .ok v → ne u v = false) := by
    by_cases hst : s = t
    · obtain ⟨res, e, hr⟩ := compareValues_ok hI ha ho hs ht (by rw [hst]) (fun i hi => by rw [hst]; exact hi) ne true
      refine ⟨res, ?_, ?_⟩
      · unfold refsNe
        rw [get_ok ha, bind_ok, get_ok ho, bind_ok, if_neg (by simpa using hst)]
        exact e
      · rw [show (false : Bool) = !true from rfl, hr]
        subst hst
        simp
    · refine ⟨true, ?_, by simp [hst]⟩
      unfold refsNe
      rw [get_ok ha, bind_ok, get_ok ho, bind_ok, if_pos hst]
  obtain ⟨r, e, hr⟩ := hne
  refine ⟨!r, ?_, by rw [e]; simp, ?_⟩
  · unfold refsEq
    rw [e]
    rfl
  · rw [← hr]
    simp

/-- C69: `equal` compares mins, extents and elements, but not strides. -/
theorem C69_equal_views (ty : Types V) (hdef : TypesOk ty) (w : World V) (hw : Reachable ty w) (x y : Nat) (a o : Arr)
    (ha : w.vars x = some a) (ho : w.vars y = some o) (s t : Shape) (soff toff : Int) (hs : PartOk a s soff)
    (ht : PartOk o t toff) (ne : V → V → Bool) :
    ∃ r, refsEqual ty ne x s soff y t toff w = .ok r ∧
      (r = true ↔ s.map Dim.min = t.map Dim.min ∧ s.map Dim.extent = t.map Dim.extent ∧
        ∀ i, InBox s i → ∀ u v, refElem w x s soff i = .ok u → refElem w y t toff i = .ok v → ne u v = false) := by
  have hI := hw.inv hdef
  by_cases hst : s.map Dim.min = t.map Dim.min ∧ s.map Dim.extent = t.map Dim.extent
  · have hl : List.length s = List.length t := by simpa using congrArg List.length hst.1
    obtain ⟨res, e, hr⟩ := compareValues_ok hI ha ho hs ht hl (inBox_of_same hst.1.symm hst.2.symm) ne false
    refine ⟨res, ?_, ?_⟩
    · unfold refsEqual Shape.mins Shape.extents
      rw [get_ok ha, bind_ok, get_ok ho, bind_ok, if_neg (by tauto)]
      exact e
    · rw [show (true : Bool) = !false from rfl, hr]
      refine ⟨fun h => ⟨hst.1, hst.2, fun i hi => h i (inBox_of_same hst.1 hst.2 i hi)⟩,
        fun h i hi => h.2.2 i (inBox_of_same hst.1.symm hst.2.symm i hi)⟩
  · refine ⟨false, ?_, ?_⟩
    · unfold refsEqual Shape.mins Shape.extents
      rw [get_ok ha, bind_ok, get_ok ho, bind_ok, if_pos (by tauto)]
    · simp only [Bool.false_eq_true, false_iff]
      tauto

/-- An array with contents has memory for them. -/
theorem Contents.part {ty : Types V} {w : World V} (hI : Inv ty w) {x : Nat} {s : Shape} {f : Index → V}
    (h : Contents w x s f) : ∃ a, w.vars x = some a ∧ a.shape = s ∧ NotHollow a ∧ PartOk a s 0 ∧
      ∀ i, InBox s i → refElem w x s 0 i = .ok (f i) := by
  obtain ⟨⟨a, ha, rfl⟩, hf⟩ := h
  have hb : ∀ i, InBox a.shape i → a.base ≠ none := by
    intro i hi hb
    have := hf i hi
    unfold elem at this
    rw [get_ok ha, bind_ok, hb] at this
    simp at this
  refine ⟨a, ha, rfl, ?_, ⟨(hI.good x a ha).shape.nonNeg, fun i hi => ⟨hb i hi, i, hi, by simp⟩⟩, ?_⟩
  · intro hn hp
    obtain ⟨i, hi⟩ := exists_inBox_iff.2 hp
    exact hb i hi hn
  · intro i hi
    rw [refElem_self x ha]
    exact hf i hi

/-- C69: two arrays compare equal exactly if they have the same shape and elements. -/
theorem C69_eq (ty : Types V) (hdef : TypesOk ty) (w : World V) (hw : Reachable ty w) (x y : Nat) (s t : Shape)
    (f g : Index → V) (hf : Contents w x s f) (hg : Contents w y t g) (ne : V → V → Bool) :
    ∃ r, arraysEq ty ne x y w = .ok r ∧ arraysNe ty ne x y w = .ok (!r) ∧
      (r = true ↔ s = t ∧ ∀ i, InBox s i → ne (f i) (g i) = false) := by
  obtain ⟨a, ha, has, -, hpa, hra⟩ := hf.part (hw.inv hdef)
  obtain ⟨o, ho, hos, -, hpo, hro⟩ := hg.part (hw.inv hdef)
  obtain ⟨r, e1, e2, hr⟩ := C69_eq_views ty hdef w hw x y a o ha ho s t 0 0 hpa hpo ne
  refine ⟨r, ?_, ?_, ?_⟩
  · unfold arraysEq
    rw [get_ok ha, bind_ok, get_ok ho, bind_ok, has, hos]
    exact e1
  · unfold arraysNe
    rw [get_ok ha, bind_ok, get_ok ho, bind_ok, has, hos]
    exact e2
  · rw [hr]
    refine and_congr_right ?_
    rintro rfl
    refine ⟨fun h i hi => h i hi _ _ (hra i hi) (hro i hi), ?_⟩
    intro h i hi u v hu hv
    rw [hra i hi] at hu
    rw [hro i hi] at hv
    injection hu with hu
    injection hv with hv
    rw [← hu, ← hv]
    exact h i hi

/-- C69: two arrays are `equal` exactly if they have the same indices and elements, whatever their strides. -/
theorem C69_equal (ty : Types V) (hdef : TypesOk ty) (w : World V) (hw : Reachable ty w) (x y : Nat) (s t : Shape)
    (f g : Index → V) (hf : Contents w x s f) (hg : Contents w y t g) (ne : V → V → Bool) :
    ∃ r, arraysEqual ty ne x y w = .ok r ∧
      (r = true ↔ s.map Dim.min = t.map Dim.min ∧ s.map Dim.extent = t.map Dim.extent ∧
        ∀ i, InBox s i → ne (f i) (g i) = false) := by
  obtain ⟨a, ha, has, -, hpa, hra⟩ := hf.part (hw.inv hdef)
  obtain ⟨o, ho, hos, -, hpo, hro⟩ := hg.part (hw.inv hdef)
  obtain ⟨r, e1, hr⟩ := C69_equal_views ty hdef w hw x y a o ha ho s t 0 0 hpa hpo ne
  refine ⟨r, ?_, ?_⟩
  · unfold arraysEqual
    rw [get_ok ha, bind_ok, get_ok ho, bind_ok, has, hos]
    exact e1
  · rw [hr]
    refine and_congr_right fun h1 => and_congr_right fun h2 => ?_
    refine ⟨fun h i hi => h i hi _ _ (hra i hi) (hro i (inBox_of_same h1 h2 i hi)), ?_⟩
    intro h i hi u v hu hv
    rw [hra i hi] at hu
    rw [hro i (inBox_of_same h1 h2 i hi)] at hv
    injection hu with hu
    injection hv with hv
    rw [← hu, ← hv]
    exact h i hi

/-- C69: `==` is reflexive, symmetric and transitive if `!=` of the elements is the negation of such a relation. -/
theorem C69_equivalence (ty : Types V) (hdef : TypesOk ty) (w : World V) (hw : Reachable ty w) (x y z : Nat) (s t r : Shape)
    (f g h : Index → V) (hf : Contents w x s f) (hg : Contents w y t g) (hh : Contents w z r h) (ne : V → V → Bool) :
    ((∀ v, ne v v = false) → arraysEq ty ne x x w = .ok true) ∧
    ((∀ u v, ne u v = ne v u) → arraysEq ty ne x y w = arraysEq ty ne y x w) ∧
    ((∀ u v k, ne u v = false → ne v k = false → ne u k = false) → arraysEq ty ne x y w = .ok true →
      arraysEq ty ne y z w = .ok true → arraysEq ty ne x z w = .ok true) := by
  have eq := fun x y s t f g hf hg => C69_eq ty hdef w hw x y s t f g hf hg ne
  refine ⟨fun hne => ?_, fun hne => ?_, fun hne h1 h2 => ?_⟩
  · obtain ⟨r, e, -, hr⟩ := eq x x s s f f hf hf
    rw [e, hr.2 ⟨rfl, fun i _ => hne _⟩]
  · obtain ⟨r1, e1, -, hr1⟩ := eq x y s t f g hf hg
    obtain ⟨r2, e2, -, hr2⟩ := eq y x t s g f hg hf
    rw [e1, e2, show r1 = r2 from ?_]
    rw [Bool.eq_iff_iff, hr1, hr2]
    constructor
    · rintro ⟨rfl, h⟩
      exact ⟨rfl, fun i hi => by rw [hne]; exact h i hi⟩
    · rintro ⟨rfl, h⟩
      exact ⟨rfl, fun i hi => by rw [hne]; exact h i hi⟩
  · obtain ⟨r1, e1, -, hr1⟩ := eq x y s t f g hf hg
    obtain ⟨r2, e2, -, hr2⟩ := eq y z t r g h hg hh
    obtain ⟨r3, e3, -, hr3⟩ := eq x z s r f h hf hh
    rw [e1] at h1
    rw [e2] at h2
    injection h1 with h1
    injection h2 with h2
    obtain ⟨rfl, h1⟩ := hr1.1 h1
    obtain ⟨rfl, h2⟩ := hr2.1 h2
    rw [e3, hr3.2 ⟨rfl, fun i hi => hne _ _ _ (h1 i hi) (h2 i hi)⟩]

/-- C69: a copy compares equal to its source, in whichever of the four ways it is made. -/
theorem C69_copy (ty : Types V) (hdef : TypesOk ty) (w : World V) (hw : Reachable ty w)
    (y : Nat) (o : Arr) (ho : w.vars y = some o) (f : Index → V) (hf : Contents w y o.shape f)
    (hk : o.base = none → ∀ d ∈ o.shape, Known d) (c : Cmd V) (x : Nat)
    (hc : c = .newCopy y ∧ x = w.nextVar ∨ (∃ al, c = .newCopyAlloc y al) ∧ x = w.nextVar ∨
      (c = .copyAssign x y ∨ c = .assignCopy x y) ∧ ∃ a, w.vars x = some a)
    (ne : V → V → Bool) (hne : ∀ v, ne v v = false) :
    ∃ w', exec ty c w = .ok w' ∧ arraysEq ty ne x y w' = .ok true ∧ arraysEqual ty ne x y w' = .ok true := by
  have hn : NotHollow o := by
    obtain ⟨a, ha, -, hn, -⟩ := hf.part (hw.inv hdef)
    rw [ho] at ha
    injection ha with ha
    rw [ha]
    exact hn
  have hsrc : SrcOk ty o := fun hb => ⟨hn hb, fun _ => hk hb⟩
  have hal : Allowed ty w c := by
    rcases hc with ⟨rfl, -⟩ | ⟨⟨al, rfl⟩, -⟩ | ⟨rfl | rfl, a, ha⟩
    · exact with_iff.2 ⟨o, ho, hsrc⟩
    · exact with_iff.2 ⟨o, ho, hsrc⟩
    · exact with_iff.2 ⟨a, ha, with_iff.2 ⟨o, ho, hsrc⟩⟩
    · exact with_iff.2 ⟨a, ha, with_iff.2 ⟨o, ho, hsrc⟩⟩
  obtain ⟨w', e, h1, h2, h3, -⟩ := C32_copy ty hdef w hw y o ho hsrc f hf c x hc
  have hw' := hw.exec hal e
  have hx : Contents w' x o.shape f := by
    by_cases hb : o.base = none
    · obtain ⟨a', ha', hs, hp⟩ := h3 hb
      rw [resolve_of_known (hk hb), or_self] at hs
      exact ⟨⟨a', ha', hs⟩, fun i hi => absurd (pos_of_inBox hi) (by rw [← hs]; exact hp)⟩
    · exact h2 hb
  obtain ⟨r, e1, -, hr⟩ := C69_eq ty hdef w' hw' x y _ _ f f hx h1 ne
  obtain ⟨r', e2, hr'⟩ := C69_equal ty hdef w' hw' x y _ _ f f hx h1 ne
  refine ⟨w', e, ?_, ?_⟩
  · rw [e1, hr.2 ⟨rfl, fun i _ => hne _⟩]
  · rw [e2, hr'.2 ⟨rfl, rfl, fun i _ => hne _⟩]

/-- C69: writing to one of two arrays that compare equal: they still do exactly if the value is equal to the one of the
other array. -/
theorem C69_write (ty : Types V) (hdef : TypesOk ty) (w : World V) (hw : Reachable ty w) (x y : Nat) (hxy : x ≠ y)
    (s : Shape) (hinj : Injective s) (f g : Index → V) (hf : Contents w x s f) (hg : Contents w y s g)
    (ne : V → V → Bool) (heq : arraysEq ty ne x y w = .ok true) (i : Index) (hi : InBox s i) (v : V) :
    ∃ w', exec ty (.write x i v) w = .ok w' ∧ arraysEq ty ne x y w' = .ok (!ne v (g i)) := by
  have hI := hw.inv hdef
  obtain ⟨a, ha, rfl, hn, hp, -⟩ := hf.part hI
  have hb : a.base ≠ none := fun h => hn h (pos_of_inBox hi)
  obtain ⟨w', e, -, hst, hv, -, hel⟩ := write_ok hI ha hb hi v
  have hw' := hw.exec (c := .write x i v) (with_iff.2 ⟨a, ha, hb, hi⟩) e
  have hx : Contents w' x a.shape fun j => if j = i then v else f j := by
    refine ⟨⟨a, by rw [hv]; exact ha, rfl⟩, fun j hj => ?_⟩
    rw [hel j hj]
    by_cases hji : j = i
    · subst hji; simp
    · rw [if_neg fun hc => hji (hinj j i hj hi hc)]
      simpa [hji] using hf.2 j hj
  have hy : Contents w' y a.shape g := by
    obtain ⟨⟨o, ho, hs⟩, hg⟩ := hg
    refine ⟨⟨o, by rw [hv]; exact ho, hs⟩, fun j hj => ?_⟩
    rw [hst.elem hI (fun h => hxy h.symm)]
    exact hg j hj
  obtain ⟨r0, e0, -, hr0⟩ := C69_eq ty hdef w hw x y _ _ f g hf hg ne
  obtain ⟨r, e1, -, hr⟩ := C69_eq ty hdef w' hw' x y _ _ _ g hx hy ne
  rw [e0] at heq
  injection heq with heq
  refine ⟨w', e, ?_⟩
  rw [e1, show r = !ne v (g i) from ?_]
  rw [Bool.eq_iff_iff, hr]
  simp only [Bool.not_eq_true', true_and]
  constructor
  · intro h
    simpa using h i hi
  · intro h j hj
    by_cases hji : j = i
    · subst hji; simpa using h
    · simpa [hji] using (hr0.1 heq).2 j hj

/-- C69: `reshape` to a shape with more indices and back to the old shape changes nothing that can be read. -/
theorem C69_reshape_back (ty : Types V) (hdef : TypesOk ty) (w : World V) (hw : Reachable ty w) (x : Nat) (a : Arr)
    (ha : w.vars x = some a) (hp : Pos a.shape) (f : Index → V) (hf : Contents w x a.shape f) (hinj : Injective a.shape)
    (s : Shape) (hs : ShapeOk ty s) (hsub : ∀ i, InBox a.shape i → InBox s i) (hinjs : Injective s.resolve) :
    ∃ w', execAll ty [.reshape x s, .reshape x a.shape] w = .ok w' ∧ Contents w' x a.shape f ∧
      ∀ y o, y ≠ x → w.vars y = some o → w'.vars y = some o ∧ (∀ i, elem w' y i = elem w y i) ∧
        ∀ g, Contents w y o.shape g → ∀ ne, arraysEq ty ne x y w' = arraysEq ty ne x y w := by
  have hI := hw.inv hdef
  have hb : a.base ≠ none := by
    obtain ⟨a', ha', -, hn, -⟩ := hf.part hI
    rw [ha] at ha'
    injection ha' with ha'
    exact fun h => hn (by rw [← ha']; exact h) (by rw [← ha']; exact hp)
  have hps : Pos s := by
    obtain ⟨i, hi⟩ := exists_inBox_iff.2 hp
    exact pos_of_inBox (hsub i hi)
  have hpre : ReshapeOk ty a s := fun h => absurd h (by tauto)
  have hok : ShapeOk ty a.shape := (hI.good x a ha).shape
  have hres : a.shape.resolve = a.shape := resolve_of_known ((hI.good x a ha).known hb)
  obtain ⟨w1, a1, e1, hI1, st1, -, ha1, hs1, hn1, hv1⟩ := reshape_ok hI hdef ha (fun h => absurd h hb) hs hpre
  have hw1 := hw.exec (c := .reshape x s) (with_iff.2 ⟨a, ha, fun h => absurd h hb, hs, hpre⟩) e1
  have hb1 : a1.base ≠ none := fun h => hn1 h (by rw [hs1]; exact resolve_pos.2 hps)
  have hpre1 : ReshapeOk ty a1 a.shape := fun h => absurd h (by tauto)
  obtain ⟨w2, a2, e2, hI2, st2, -, ha2, hs2, hn2, hv2⟩ := reshape_ok hI1 hdef ha1 hn1 hok hpre1
  have hw2 := hw1.exec (c := .reshape x a.shape) (with_iff.2 ⟨a1, ha1, hn1, hok, hpre1⟩) e2
  have hx : Contents w2 x a.shape f := by
    refine ⟨⟨a2, ha2, by rw [hs2, hres]⟩, fun i hi => ?_⟩
    have his : InBox s.resolve i := (inBox_resolve s i).2 (hsub i hi)
    rw [((hv2 (by rw [hs1]; exact hinjs) (by rw [hres]; exact hinj) i (by rw [hres]; exact hi)).1 (by rw [hs1]; exact his)),
      ((hv1 hinj hinjs i his).1 hi)]
    exact hf.2 i hi
  refine ⟨w2, ?_, hx, ?_⟩
  · rw [execAll_cons]
    show (reshape ty x s w >>= _) = _
    rw [e1, bind_ok, execAll_cons]
    show (reshape ty x a.shape w1 >>= _) = _
    rw [e2, bind_ok]
    rfl
  · intro y o hyx ho
    have h1 : w2.vars y = some o := by rw [st2.vars y hyx, st1.vars y hyx]; exact ho
    have h2 : ∀ i, elem w2 y i = elem w y i := fun i => by rw [st2.elem hI1 hyx, st1.elem hI hyx]
    refine ⟨h1, h2, fun g hg ne => ?_⟩
    have hy : Contents w2 y o.shape g := ⟨⟨o, h1, rfl⟩, fun i hi => by rw [h2]; exact hg.2 i hi⟩
    obtain ⟨r0, e0, -, hr0⟩ := C69_eq ty hdef w hw x y _ _ f g hf hg ne
    obtain ⟨r, e, -, hr⟩ := C69_eq ty hdef w2 hw2 x y _ _ f g hx hy ne
    rw [e0, e, show r = r0 from by rw [Bool.eq_iff_iff, hr, hr0]]

/-- C69: two swaps are none. -/
theorem C69_swap_twice (ty : Types V) (hdef : TypesOk ty) (w : World V) (hw : Reachable ty w)
    (x y : Nat) (hxy : x ≠ y) (a o : Arr) (ha : w.vars x = some a) (ho : w.vars y = some o)
    (hba : a.base ≠ none) (hbo : o.base ≠ none)
    (hinj : ty.propagateSwap = true ∨ Injective a.shape ∧ Injective o.shape)
    (f g : Index → V) (hf : Contents w x a.shape f) (hg : Contents w y o.shape g) (hpa : Pos a.shape) (hpo : Pos o.shape) :
    ∃ w', execAll ty [.swap x y, .swap x y] w = .ok w' ∧ Contents w' x a.shape f ∧ Contents w' y o.shape g := by
  have hsa : SrcOk ty a := fun h => absurd h hba
  have hso : SrcOk ty o := fun h => absurd h hbo
  obtain ⟨w1, e1, hx1, hy1, -, -⟩ := C34_swap ty hdef w hw x y a o ha ho hsa hso (fun h => absurd h hxy) hinj f g hf hg
  have hw1 := hw.exec (c := .swap x y) (with_iff.2 ⟨a, ha, with_iff.2 ⟨o, ho, hsa, hso, fun h => absurd h hxy⟩⟩) e1
  obtain ⟨a1, ha1, hs1, hn1, -⟩ := (hx1 hbo).part (hw1.inv hdef)
  obtain ⟨o1, ho1, ht1, hm1, -⟩ := (hy1 hba).part (hw1.inv hdef)
  have hb1 : a1.base ≠ none := fun h => hn1 h (by rw [hs1]; exact hpo)
  have hc1 : o1.base ≠ none := fun h => hm1 h (by rw [ht1]; exact hpa)
  obtain ⟨w2, e2, hx2, hy2, -, -⟩ := C34_swap ty hdef w1 hw1 x y a1 o1 ha1 ho1 (fun h => absurd h hb1)
    (fun h => absurd h hc1) (fun h => absurd h hxy) (by rw [hs1, ht1]; tauto) g f (by rw [hs1]; exact hx1 hbo)
    (by rw [ht1]; exact hy1 hba)
  refine ⟨w2, ?_, by have := hx2 hc1; rwa [ht1] at this, by have := hy2 hb1; rwa [hs1] at this⟩
  rw [execAll_cons, e1, bind_ok, execAll_cons, e2, bind_ok]
  rfl

/-- C69: `array b(std::move(a)); a = std::move(b);` gives `a` its contents back, whether memory or elements are moved. -/
theorem C69_move_back (ty : Types V) (hdef : TypesOk ty) (w : World V) (hw : Reachable ty w) (y : Nat) (o : Arr)
    (ho : w.vars y = some o) (hp : Pos o.shape) (f : Index → V) (hf : Contents w y o.shape f)
    (hinj : Injective o.shape) :
    ∃ w', execAll ty [.newMove y, .moveAssign y w.nextVar] w = .ok w' ∧ Contents w' y o.shape f := by
  have hI := hw.inv hdef
  have hb : o.base ≠ none := by
    obtain ⟨a', ha', -, hn, -⟩ := hf.part hI
    rw [ho] at ha'
    injection ha' with ha'
    exact fun h => hn (by rw [← ha']; exact h) (by rw [← ha']; exact hp)
  obtain ⟨w1, a1, o1, e1, hI1, -, -, -, ho1, hr1, -, -⟩ := newMove_ok hI hdef ho fun _ h => absurd h hb
  have hs1 : a1.shape = o.shape := hr1.shape.resolve_right fun h => hb h.1
  have hx1 : Contents w1 w.nextVar o.shape f :=
    ⟨⟨a1, hr1.var, hs1⟩, fun i hi => by rw [hr1.vals (Or.inr hinj) i (by rw [hs1]; exact hi)]; exact hf.2 i hi⟩
  have hb1 : a1.base ≠ none := by
    obtain ⟨a', ha', hs', hn, -⟩ := hx1.part hI1
    rw [hr1.var] at ha'
    injection ha' with ha'
    exact fun h => hn (by rw [← ha']; exact h) (by rw [hs']; exact hp)
  obtain ⟨w2, a2, -, e2, hI2, -, -, -, hr2, -⟩ := moveAssignOp_ok hI1 hdef ho1 hr1.var
    ⟨fun _ h => absurd h hb1, fun _ _ h => absurd h hb1⟩
  have hs2 : a2.shape = o.shape := by rw [← hs1]; exact hr2.shape.resolve_right fun h => hb1 h.1
  refine ⟨w2, ?_, ⟨a2, hr2.var, hs2⟩, fun i hi => ?_⟩
  · rw [execAll_cons]
    show (newMove ty y w >>= _) = _
    rw [e1, bind_ok, execAll_cons]
    show (moveAssignOp ty y w.nextVar w1 >>= _) = _
    rw [e2, bind_ok]
    rfl
  · rw [hr2.vals (Or.inr (by rw [hs1]; exact hinj)) i (by rw [hs2]; exact hi)]
    exact hx1.2 i hi

theorem refines_same {s t : List Dim} (h : RefinesStrides s t) :
    t.map Dim.min = s.map Dim.min ∧ t.map Dim.extent = s.map Dim.extent := by
  induction h with
  | nil => exact ⟨rfl, rfl⟩
  | cons h _ ih => simp [h.1, h.2.1, ih.1, ih.2]

/-- C69: `make_copy(y, shape, alloc)` with a shape of the same mins and extents is `equal` to `y`. -/
theorem C69_make_copy (ty : Types V) (hdef : TypesOk ty) (w : World V) (hw : Reachable ty w)
    (y : Nat) (o : Arr) (ho : w.vars y = some o) (f : Index → V) (hf : Contents w y o.shape f) (s : Shape) (al : Nat)
    (hs : ShapeOk ty s) (h1 : s.map Dim.min = o.shape.map Dim.min) (h2 : s.map Dim.extent = o.shape.map Dim.extent)
    (hinj : Injective s.resolve) (ne : V → V → Bool) (hne : ∀ v, ne v v = false) :
    ∃ w', exec ty (.makeCopy y s al) w = .ok w' ∧ arraysEqual ty ne w.nextVar y w' = .ok true := by
  have hI := hw.inv hdef
  have hn : NotHollow o := by
    obtain ⟨a, ha, -, hn, -⟩ := hf.part hI
    rw [ho] at ha
    injection ha with ha
    rw [ha]
    exact hn
  have hsub := inBox_of_same h1 h2
  obtain ⟨w', a', e, -, -, hx, hy⟩ := C55_copy_array ty hdef w hw y o ho hn f hf s al hs hsub hinj
  have hw' := hw.exec (c := .makeCopy y s al) (with_iff.2 ⟨o, ho, ViewOk.self hI ho hn hs hsub⟩) e
  obtain ⟨r, e1, hr⟩ := C69_equal ty hdef w' hw' _ y _ _ f f hx hy ne
  refine ⟨w', e, ?_⟩
  rw [e1, hr.2 ⟨?_, ?_, fun i _ => hne _⟩]
  · exact (refines_same (resolve_refines s)).1.trans h1
  · exact (refines_same (resolve_refines s)).2.trans h2

/-- C69: `make_compact_copy(y, alloc)` is `equal` to `y`. -/
theorem C69_compact_copy (ty : Types V) (hdef : TypesOk ty) (w : World V) (hw : Reachable ty w)
    (y : Nat) (o : Arr) (ho : w.vars y = some o) (hp : Pos o.shape) (f : Index → V) (hf : Contents w y o.shape f) (al : Nat)
    (hfit : (List.map Dim.extent o.shape).prod ≤ 9223372036854775807) (ne : V → V → Bool) (hne : ∀ v, ne v v = false) :
    ∃ w', makeCompactFrom true ty y al w = .ok w' ∧ arraysEqual ty ne w.nextVar y w' = .ok true := by
  have heq := makeCompactDynamic_eq o.shape hp hfit
  obtain ⟨-, hinj, -, -⟩ := C05_dense (Shape.bounds o.shape) (bounds_pos hp) (fun d hd => bounds_not_known hd)
    (by have := bounds_prod o.shape; exact le_of_eq_of_le this hfit)
  have hsame := refines_same (resolve_refines (Shape.bounds o.shape))
  have hb : List.map Dim.min (Shape.bounds o.shape) = List.map Dim.min o.shape ∧
      List.map Dim.extent (Shape.bounds o.shape) = List.map Dim.extent o.shape := by
    simp [Shape.bounds, Function.comp_def]
  have hpos : Pos (Shape.bounds o.shape).resolve := resolve_pos.2 (bounds_pos hp)
  obtain ⟨w', e, h⟩ := C69_make_copy ty hdef w hw y o ho f hf (makeCompactDynamic o.shape) al (by
      rw [heq]
      refine ⟨?_, hpos.nonNeg, Or.inl hpos⟩
      rw [resolve_length]
      exact (by simp [Shape.bounds] : List.length (Shape.bounds o.shape) = List.length o.shape).trans
        ((hw.inv hdef).good y o ho).shape.rank)
    (by rw [heq]; exact hsame.1.trans hb.1) (by rw [heq]; exact hsame.2.trans hb.2)
    (by rw [heq, resolve_of_known (resolve_known _)]; exact hinj) ne hne
  refine ⟨w', ?_, h⟩
  rw [← e]
  unfold makeCompactFrom
  rw [get_ok ho, bind_ok]
  exact (makeFromArray_eq ho _ al).symm

/-- The comparison of arrays `x` and `y` after a program. -/
def compared (ty : Types Int) (p : List (Cmd Int)) (x y : Nat) : Except Fault (Bool × Bool) :=
  execAll ty p World.start >>= fun w => do
    let r ← arraysEq ty (fun u v => u != v) x y w
    let q ← arraysEqual ty (fun u v => u != v) x y w
    pure (r, q)

/-- A copy; a copy that is changed; a copy with other strides. -/
example : let p : List (Cmd Int) := [.newFill [⟨1, 3, unresolved⟩, ⟨-2, 2, unresolved⟩] 7, .write 0 [2, -1] 9, .newCopy 0,
      .makeCopy 0 [⟨1, 3, 2⟩, ⟨-2, 2, 1⟩] 1]
    compared exampleTypes p 0 1 = .ok (true, true) ∧ compared exampleTypes p 0 2 = .ok (false, true) ∧
    compared exampleTypes (p ++ [.write 1 [2, -1] 7]) 0 1 = .ok (false, false) ∧
    compared exampleTypes (p ++ [.write 1 [2, -1] 7, .write 0 [2, -1] 7]) 0 1 = .ok (true, true) ∧
    compared exampleTypes (p ++ [.reshape 0 [⟨0, 5, unresolved⟩, ⟨-4, 7, unresolved⟩]]) 0 1 = .ok (false, false) ∧
    compared exampleTypes (p ++ [.reshape 0 [⟨0, 5, unresolved⟩, ⟨-4, 7, unresolved⟩],
      .reshape 0 [⟨1, 3, 1⟩, ⟨-2, 2, 3⟩]]) 0 1 = .ok (true, true) := by decide +kernel

/-- C69 is violated for moved-from arrays: `b = a` leaves `b != a`, because only the strides of `b` are made known.
(With assertions an assertion fails, see C31_moved_from_source_counterexample.) -/
theorem C69_moved_from_counterexample :
    let ty := { exampleTypes with debug := false }
    let p : List (Cmd Int) := [.newFill [⟨0, 2, unresolved⟩, ⟨0, 2, unresolved⟩] 7, .newCopy 0, .newMove 0,
      .copyAssign 1 0]
    AllowedRun ty p World.start ∧ compared ty p 1 0 = .ok (false, true) := by decide +kernel

end Nda
