import Verif.Model.CopyChains
import Verif.Spec.Relabel
import Verif.Props.Algorithms
import Verif.Props.Views
import Verif.Props.Order
import Verif.Lemmas.Tiling
import Mathlib.Tactic.LinearCombination
/-
C109: algorithms do not depend on the order, direction and mins of the dims, and copies may be chained.
-/
namespace Nda
open Spec
variable {α : Type}

/-- C109: `for_each_value` calls its function for the same elements, each as often. -/
theorem C109_for_each_value {φ : Index → Index} {a a' : ArrayRef} (H : Relabels φ a a') (hn : NonNeg a.shape) (hn' : NonNeg a'.shape) :
    a'.forEachValue.Perm a.forEachValue := by
  obtain ⟨b, b', hb, hb', e⟩ := H.same
  have hen := boxList_enumerates a.shape
  have h1 := C14_for_each_value a b hb hn _ hen
  have h2 := C14_for_each_value a' b' hb' hn' ((boxList a.shape).map φ) ⟨hen.1.map_on fun i hi j hj h =>
    H.inj i j ((hen.2 i).1 hi) ((hen.2 j).1 hj) h, fun j => by
      rw [List.mem_map]
      constructor
      · rintro ⟨i, hi, rfl⟩
        exact H.into i ((hen.2 i).1 hi)
      · intro hj
        obtain ⟨i, hi, rfl⟩ := H.onto j hj
        exact ⟨i, (hen.2 i).2 hi, rfl⟩⟩
  rw [List.map_map] at h2
  refine h2.trans (List.Perm.trans (.of_eq ?_) h1.symm)
  exact List.map_congr_left fun i hi => e i ((hen.2 i).1 hi)

/-- C109: `fill`. -/
theorem C109_fill {φ : Index → Index} {a a' : ArrayRef} (H : Relabels φ a a') (hn : NonNeg a.shape) (hn' : NonNeg a'.shape) (v : α)
    (m : Mem α) : fill a' v m = fill a v m := by
  obtain ⟨b, b', hb, hb', e⟩ := H.same
  obtain ⟨g1, g2⟩ := C19_fill a' b' hb' hn' v m
  obtain ⟨h1, h2⟩ := C19_fill a b hb hn v m
  refine mem_ext_elems (s := a.shape) (A := fun i => b + offsetOf a.shape i) (F := fun _ => v) (m := m) (fun i hi => ?_) (fun x hx => ?_) h1 h2
  · rw [← e i hi]
    exact g1 _ (H.into i hi)
  · refine g2 x fun j hj => ?_
    obtain ⟨i, hi, rfl⟩ := H.onto j hj
    rw [e i hi]
    exact hx i hi

private theorem relabel_injective {φ : Index → Index} {a a' : ArrayRef} (H : Relabels φ a a') (hi : Injective a.shape) :
    Injective a'.shape := by
  obtain ⟨b, b', hb, hb', e⟩ := H.same
  intro j j' hj hj' h
  obtain ⟨i, hi', rfl⟩ := H.onto j hj
  obtain ⟨i', hi'', rfl⟩ := H.onto j' hj'
  have h1 := e i hi'
  have h2 := e i' hi''
  rw [hi i i' hi' hi'' (by omega)]

/-- C109: `copy`, if both arrays get the new indices. -/
theorem C109_copy {φ : Index → Index} {src src' dst dst' : ArrayRef} (Hs : Relabels φ src src') (Hd : Relabels φ dst dst')
    (hl : List.length src.shape = dst.shape.length) (hl' : List.length src'.shape = dst'.shape.length) (hn : NonNeg dst.shape)
    (hn' : NonNeg dst'.shape) (hin : ∀ i, InBox dst.shape i → InBox src.shape i) (hinj : Injective dst.shape)
    (hdis : ∀ x, ElementAt src x → ¬ ElementAt dst x) (conv : α → α) (m : Mem α) : copy conv src' dst' m = copy conv src dst m := by
  obtain ⟨sb, sb', hsb, hsb', es⟩ := Hs.same
  obtain ⟨db, db', hdb, hdb', ed⟩ := Hd.same
  obtain ⟨h1, h2⟩ := C15_copy conv src dst sb db hsb hdb hl hn hin hinj (fun i j hi hj h =>
    hdis _ ⟨sb, i, hsb, hi, rfl⟩ ⟨db, j, hdb, hj, h⟩) m
  obtain ⟨g1, g2⟩ := C15_copy conv src' dst' sb' db' hsb' hdb' hl' hn' (fun j hj => by
      obtain ⟨i, hi, rfl⟩ := Hd.onto j hj
      exact Hs.into i (hin i hi)) (relabel_injective Hd hinj) (fun i j hi hj h => by
      obtain ⟨i, hi0, rfl⟩ := Hs.onto i hi
      obtain ⟨j, hj0, rfl⟩ := Hd.onto j hj
      rw [es i hi0, ed j hj0] at h
      exact hdis _ ⟨sb, i, hsb, hi0, rfl⟩ ⟨db, j, hdb, hj0, h⟩) m
  refine mem_ext_elems (s := dst.shape) (A := fun i => db + offsetOf dst.shape i) (F := fun i => conv (m (sb + offsetOf src.shape i)))
    (m := m) (fun i hi => ?_) (fun x hx => ?_) h1 h2
  · rw [← ed i hi, g1 _ (Hd.into i hi), es i (hin i hi)]
  · refine g2 x fun j hj => ?_
    obtain ⟨i, hi, rfl⟩ := Hd.onto j hj
    rw [ed i hi]
    exact hx i hi

/-- C109: `transform_index`, if the function is given the new indices. -/
theorem C109_transform_index {φ : Index → Index} {a a' : ArrayRef} (H : Relabels φ a a') (hn : NonNeg a.shape) (hn' : NonNeg a'.shape)
    (hi : Injective a.shape) (fn : Index → α) (m : Mem α) : transformIndex a' fn m = transformIndex a (fun i => fn (φ i)) m := by
  obtain ⟨b, b', hb, hb', e⟩ := H.same
  obtain ⟨m1, e1, g1, g2⟩ := C19_transform_index a' b' hb' hn' (relabel_injective H hi) fn m
  obtain ⟨m2, e2, h1, h2⟩ := C19_transform_index a b hb hn hi (fun i => fn (φ i)) m
  rw [e1, e2]
  congr 1
  refine mem_ext_elems (s := a.shape) (A := fun i => b + offsetOf a.shape i) (F := fun i => fn (φ i)) (m := m) (fun i hi => ?_)
    (fun x hx => ?_) h1 h2
  · rw [← e i hi]
    exact g1 _ (H.into i hi)
  · refine g2 x fun j hj => ?_
    obtain ⟨i, hi, rfl⟩ := H.onto j hj
    rw [e i hi]
    exact hx i hi

/-- C109: `transpose` relabels. -/
theorem C109_transpose (a : ArrayRef) (hb : a.base ≠ none) (P : List Nat) (hP : P.Perm (List.range a.shape.length))
    (hk : ∀ d ∈ a.shape, Known d) : Relabels (fun i => P.map fun k => i.getD k 0) a (a.transpose P) := by
  obtain ⟨b, hb⟩ := Option.ne_none_iff_exists'.1 hb
  obtain ⟨e, -, -⟩ := C22_transpose_ref a P hP hk
  have hlen : P.length = a.shape.length := by rw [hP.length_eq, List.length_range]
  have hP' : P.Perm (List.range P.length) := by rw [hlen]; exact hP
  have key : ∀ i : Index, i.length = a.shape.length → offsetOf (a.shape.transpose P) (P.map fun k => i.getD k 0) = offsetOf a.shape i ∧
      (InBox (a.shape.transpose P) (P.map fun k => i.getD k 0) ↔ InBox a.shape i) := by
    intro i hi
    have := C22_transpose_shape a.shape P hP' (by omega) i hi
    rwa [List.drop_eq_nil_of_le (by omega), List.append_nil] at this
  rw [e]
  refine ⟨⟨b, b, hb, hb, fun i hi => ?_⟩, fun i hi => ?_, fun j hj => ?_, fun i j hi hj h => ?_⟩
  · dsimp only
    rw [(key i (inBox_length hi)).1]
  · exact (key i (inBox_length hi)).2.2 hi
  · dsimp only at hj
    obtain ⟨i, hi, rfl⟩ := C22_transpose_onto a.shape P hP' (by omega) j (by
      rw [inBox_length hj]
      exact (transpose_shape_perm hP' (by omega)).length_eq)
    rw [List.drop_eq_nil_of_le (by omega), List.append_nil] at hj ⊢
    exact ⟨i, (key i hi).2.1 hj, rfl⟩
  · have hi' := inBox_length hi
    have hj' := inBox_length hj
    refine List.ext_getElem (hi'.trans hj'.symm) fun k h1 h2 => ?_
    have := List.map_inj_left.1 h k (hP.mem_iff.2 (List.mem_range.2 (by omega)))
    rwa [List.getD_eq_getElem _ _ h1, List.getD_eq_getElem _ _ h2] at this

private theorem new_box : ∀ {l : NewDims} {s : List Dim} {i : List Int}, l.length = s.length → InBox s i →
    InBox (newShape l s) (newIndex l s i) ∧ newStart l s + offsetOf (newShape l s) (newIndex l s i) = offsetOf s i
  | [], [], [], _, _ => ⟨trivial, rfl⟩
  | (r, x) :: l, d :: s, i :: is, hl, hi => by
    obtain ⟨h1, h2⟩ := new_box (Nat.succ.inj hl) hi.2
    obtain ⟨h3, h4⟩ := hi.1
    cases r
    · refine ⟨⟨?_, h1⟩, ?_⟩
      · simp only [Bool.false_eq_true, if_false]
        constructor <;> omega
      · simp only [newShape, newIndex, newStart, offsetOf, Bool.false_eq_true, if_false]
        linear_combination h2
    · refine ⟨⟨?_, h1⟩, ?_⟩
      · simp only [if_true]
        constructor <;> omega
      · simp only [newShape, newIndex, newStart, offsetOf, if_true]
        linear_combination h2

private theorem new_onto : ∀ {l : NewDims} {s : List Dim} {j : List Int}, l.length = s.length → InBox (newShape l s) j →
    ∃ i, InBox s i ∧ newIndex l s i = j
  | [], [], [], _, _ => ⟨[], trivial, rfl⟩
  | (r, x) :: l, d :: s, j :: js, hl, hj => by
    obtain ⟨i, h1, h2⟩ := new_onto (Nat.succ.inj hl) hj.2
    obtain ⟨h3, h4⟩ := hj.1
    dsimp only at h3 h4
    cases r
    · refine ⟨(d.min + (j - x)) :: i, ⟨by constructor <;> omega, h1⟩, ?_⟩
      simp only [newIndex, h2, Bool.false_eq_true, if_false]
      congr 1
      omega
    · refine ⟨(d.min + d.extent - 1 - (j - x)) :: i, ⟨by constructor <;> omega, h1⟩, ?_⟩
      simp only [newIndex, h2, if_true]
      congr 1
      omega

private theorem new_inj : ∀ {l : NewDims} {s : List Dim} {i j : List Int}, l.length = s.length → i.length = s.length →
    j.length = s.length → newIndex l s i = newIndex l s j → i = j
  | [], [], [], [], _, _, _, _ => rfl
  | (r, x) :: l, d :: s, i :: is, j :: js, hl, hi, hj, h => by
    simp only [newIndex, List.cons.injEq] at h
    rw [new_inj (Nat.succ.inj hl) (Nat.succ.inj hi) (Nat.succ.inj hj) h.2]
    have h1 := h.1
    cases r
    · simp only [Bool.false_eq_true, if_false] at h1
      congr 1
      omega
    · simp only [if_true] at h1
      congr 1
      omega

private theorem new_flat : ∀ {l : NewDims} {s : List Dim}, l.length = s.length →
    ((newShape l s).map fun d => (d.extent - 1) * min 0 d.stride).sum + newStart l s = (s.map fun d => (d.extent - 1) * min 0 d.stride).sum ∧
    ((newShape l s).map fun d => (d.extent - 1) * max 0 d.stride).sum + newStart l s = (s.map fun d => (d.extent - 1) * max 0 d.stride).sum
  | [], [], _ => ⟨rfl, rfl⟩
  | (r, x) :: l, d :: s, hl => by
    obtain ⟨h1, h2⟩ := new_flat (Nat.succ.inj hl)
    cases r
    · simp only [newShape, newStart, List.map_cons, List.sum_cons, Bool.false_eq_true, if_false]
      exact ⟨by omega, by omega⟩
    · simp only [newShape, newStart, List.map_cons, List.sum_cons, if_true]
      have e1 : min 0 (-d.stride) = min 0 d.stride - d.stride := by omega
      have e2 : max 0 (-d.stride) = max 0 d.stride - d.stride := by omega
      rw [e1, e2]
      exact ⟨by linear_combination h1, by linear_combination h2⟩

/-- C109: the assertion of `reinterpret_shape` holds for new mins and reversed dims. -/
theorem C109_reverse_assert (a : ArrayRef) (l : NewDims) (hl : l.length = a.shape.length) (hk : ∀ d ∈ newShape l a.shape, Known d) :
    a.reinterpretShapeAssert (newShape l a.shape) (newStart l a.shape) = true := by
  unfold ArrayRef.reinterpretShapeAssert ArrayRef.reinterpretShape ArrayRef.make Shape.isSubsetOf
  dsimp only
  rw [resolve_of_known hk, flatMin_eq, flatMin_eq, flatMax_eq, flatMax_eq]
  obtain ⟨h1, h2⟩ := new_flat hl
  simp only [ge_iff_le, Bool.and_eq_true, decide_eq_true_eq]
  constructor <;> omega

/-- C109: `reinterpret_shape` with new mins and reversed dims relabels. -/
theorem C109_reverse (a : ArrayRef) (hb : a.base ≠ none) (l : NewDims) (hl : l.length = a.shape.length)
    (hk : ∀ d ∈ newShape l a.shape, Known d) :
    Relabels (newIndex l a.shape) a (a.reinterpretShape (newShape l a.shape) (newStart l a.shape)) := by
  obtain ⟨b, hb⟩ := Option.ne_none_iff_exists'.1 hb
  have e : a.reinterpretShape (newShape l a.shape) (newStart l a.shape) = ⟨some (b + newStart l a.shape), newShape l a.shape⟩ := by
    unfold ArrayRef.reinterpretShape ArrayRef.make
    rw [resolve_of_known hk, hb]
    rfl
  rw [e]
  refine ⟨⟨b, _, hb, rfl, fun i hi => ?_⟩, fun i hi => (new_box hl hi).1, fun j hj => new_onto hl hj,
    fun i j hi hj h => new_inj hl (inBox_length hi) (inBox_length hj) h⟩
  have := (new_box hl hi).2
  dsimp only
  omega

private theorem box_of_same : ∀ {s t : List Dim} {i : List Int}, s.map Dim.min = t.map Dim.min → s.map Dim.extent = t.map Dim.extent →
    InBox s i → InBox t i
  | [], [], _, _, _, h => h
  | d :: s, e :: t, i :: is, h1, h2, h => by
    simp only [List.map_cons, List.cons.injEq] at h1 h2
    exact ⟨by rw [← h1.1, ← h2.1]; exact h.1, box_of_same h1.2 h2.2 h.2⟩

/-- C109: the comparison of two arrays does not depend on the order of their dims. -/
theorem C109_equal (ne : α → α → Bool) (a b : ArrayRef) (ha : a.base ≠ none) (hb : b.base ≠ none)
    (hl : List.length a.shape = List.length b.shape) (hn : NonNeg b.shape) (P : List Nat) (hP : P.Perm (List.range a.shape.length))
    (hka : ∀ d ∈ a.shape, Known d) (hkb : ∀ d ∈ b.shape, Known d) (m : Mem α) :
    equal ne m (a.transpose P) (b.transpose P) = equal ne m a b := by
  have hPb : P.Perm (List.range b.shape.length) := by rw [← hl]; exact hP
  have hlen : P.length = a.shape.length := by rw [hP.length_eq, List.length_range]
  have hP' : P.Perm (List.range P.length) := by rw [hlen]; exact hP
  have Ha := C109_transpose a ha P hP hka
  have Hb := C109_transpose b hb P hPb hkb
  obtain ⟨x, x', hx, hx', ea⟩ := Ha.same
  obtain ⟨y, y', hy, hy', eb⟩ := Hb.same
  have sa : (a.transpose P).shape = Shape.reorder P a.shape := by
    rw [(C22_transpose_ref a P hP hka).1]
    exact (congrArg (_ ++ ·) (List.drop_eq_nil_of_le (by omega))).trans (List.append_nil _)
  have sb : (b.transpose P).shape = Shape.reorder P b.shape := by
    rw [(C22_transpose_ref b P hPb hkb).1]
    exact (congrArg (_ ++ ·) (List.drop_eq_nil_of_le (by omega))).trans (List.append_nil _)
  have maps : ∀ f : Dim → Int, (Shape.reorder P a.shape).map f = (Shape.reorder P b.shape).map f ↔ a.shape.map f = b.shape.map f := by
    intro f
    unfold Shape.reorder
    rw [List.map_map, List.map_map, List.map_inj_left]
    constructor
    · intro h
      refine List.ext_getElem (by simp [hl]) fun k h1 h2 => ?_
      rw [List.length_map] at h1 h2
      have := h k (hP.mem_iff.2 (List.mem_range.2 h1))
      rw [Function.comp_apply, Function.comp_apply, List.getD_eq_getElem _ _ h1, List.getD_eq_getElem _ _ h2] at this
      simpa using this
    · intro h k hk
      have h1 : k < List.length a.shape := List.mem_range.1 (hP.mem_iff.1 hk)
      have h2 : k < List.length b.shape := by omega
      have := congrArg (fun l => l[k]?) h
      simpa [List.getD_eq_getElem _ _ h1, List.getD_eq_getElem _ _ h2, h1, h2] using this
  have hn' : NonNeg (b.transpose P).shape := by
    intro d hd
    rw [sb] at hd
    obtain ⟨k, hk, rfl⟩ := List.mem_map.1 hd
    have h2 : k < List.length b.shape := List.mem_range.1 (hPb.mem_iff.1 hk)
    rw [List.getD_eq_getElem _ _ h2]
    exact hn _ (List.getElem_mem h2)
  rw [Bool.eq_iff_iff, C17_equal ne m _ _ hn' (.inl ⟨x', y', hx', hy'⟩), C17_equal ne m a b hn (.inl ⟨x, y, hx, hy⟩), sa, sb, maps, maps]
  refine and_congr_right fun hmin => and_congr_right fun hext => ?_
  have hbox : ∀ i, InBox a.shape i → InBox b.shape i := fun i hi => box_of_same hmin hext hi
  constructor
  · intro h i x1 y1 hi e1 e2
    obtain rfl : x = x1 := Option.some.inj (hx.symm.trans e1)
    obtain rfl : y = y1 := Option.some.inj (hy.symm.trans e2)
    have := h _ x' y' (sa ▸ Ha.into i hi) hx' hy'
    rw [← sa, ← sb, ea i hi, eb i (hbox i hi)] at this
    exact this
  · intro h j x1 y1 hj e1 e2
    obtain rfl : x' = x1 := Option.some.inj (hx'.symm.trans e1)
    obtain rfl : y' = y1 := Option.some.inj (hy'.symm.trans e2)
    rw [← sa] at hj
    obtain ⟨i, hi, rfl⟩ := Ha.onto j hj
    have := h i x y hi hx hy
    rw [← sa, ← sb, ea i hi, eb i (hbox i hi)]
    exact this

private theorem copy_of (conv : α → α) {a b : ArrayRef} (ha : a.base ≠ none) (hb : OwnElements b) (h : CopyOf a b) (m : Mem α) :
    ∃ x y, a.base = some x ∧ b.base = some y ∧
      (∀ i, InBox b.shape i → copy conv a b m (y + offsetOf b.shape i) = conv (m (x + offsetOf a.shape i))) ∧
      ∀ z, ¬ ElementAt b z → copy conv a b m z = m z := by
  obtain ⟨x, hx⟩ := Option.ne_none_iff_exists'.1 ha
  obtain ⟨y, hy⟩ := Option.ne_none_iff_exists'.1 hb.1
  obtain ⟨h1, h2⟩ := C15_copy conv a b x y hx hy h.1 hb.2.1 h.2.1 hb.2.2 (fun i j hi hj e =>
    h.2.2 _ ⟨x, i, hx, hi, rfl⟩ ⟨y, j, hy, hj, e⟩) m
  exact ⟨x, y, hx, hy, h1, fun z hz => h2 z fun i hi e => hz ⟨y, i, hy, hi, e⟩⟩

/-- C109: an array copied from array to array arrives unchanged, in each of them, and nothing else changes. -/
theorem C109_chain (a : ArrayRef) (l : List ArrayRef) (ha : a.base ≠ none) (hl : ∀ c ∈ l, OwnElements c) (hc : (a :: l).Pairwise CopyOf)
    (m : Mem α) :
    (∀ c ∈ a :: l, ∀ i x y, a.base = some x → c.base = some y → InBox c.shape i →
      copyAlong (a :: l) m (y + offsetOf c.shape i) = m (x + offsetOf a.shape i)) ∧
    ∀ z, (∀ c ∈ l, ¬ ElementAt c z) → copyAlong (a :: l) m z = m z := by
  induction l generalizing a m with
  | nil =>
    refine ⟨fun c hcm i x y hx hy hi => ?_, fun z _ => rfl⟩
    obtain rfl := List.mem_singleton.1 hcm
    obtain rfl := Option.some.inj (hx.symm.trans hy)
    rfl
  | cons b l ih =>
    obtain ⟨hab, hbl⟩ := List.pairwise_cons.1 hc
    obtain ⟨x0, y0, hx0, hy0, h1, h2⟩ := copy_of id ha (hl b (by simp)) (hab b (by simp)) m
    obtain ⟨g1, g2⟩ := ih b (hl b (by simp)).1 (fun c h => hl c (by simp [h])) hbl (copy id a b m)
    refine ⟨fun c hcm i x y hx hy hi => ?_, fun z hz => ?_⟩
    · obtain rfl := Option.some.inj (hx0.symm.trans hx)
      rcases List.mem_cons.1 hcm with rfl | hcm
      · obtain rfl := Option.some.inj (hx.symm.trans hy)
        have hel : ElementAt c (x0 + offsetOf c.shape i) := ⟨x0, i, hx, hi, rfl⟩
        rw [copyAlong, g2 _ fun d hd => (hab d (by simp [hd])).2.2 _ hel, h2 _ ((hab b (by simp)).2.2 _ hel)]
      · have hib : InBox b.shape i := by
          rcases List.mem_cons.1 hcm with rfl | h
          · exact hi
          · exact ((List.pairwise_cons.1 hbl).1 c h).2.1 i hi
        rw [copyAlong, g1 c hcm i y0 y hy0 hy hi]
        exact h1 i hib
    · rw [copyAlong, g2 z fun c h => hz c (by simp [h]), h2 z (hz b (by simp))]

/-- C109: copying there and back, also with conversions that can be undone, changes nothing but the other array. -/
theorem C109_round_trip (f g : α → α) (hgf : ∀ x, g (f x) = x) (a b : ArrayRef) (ha : OwnElements a) (hb : OwnElements b)
    (hab : CopyOf a b) (hba : CopyOf b a) (m : Mem α) : copy g b a (copy f a b m) = copy f a b m := by
  obtain ⟨x, y, hx, hy, h1, h2⟩ := copy_of f ha.1 hb hab m
  obtain ⟨y', x', hy', hx', g1, g2⟩ := copy_of g hb.1 ha hba (copy f a b m)
  obtain rfl := Option.some.inj (hx.symm.trans hx')
  obtain rfl := Option.some.inj (hy.symm.trans hy')
  funext z
  by_cases hz : ElementAt a z
  · obtain ⟨x', i, hx', hi, rfl⟩ := hz
    obtain rfl := Option.some.inj (hx.symm.trans hx')
    rw [g1 i hi, h1 i (hba.2.1 i hi), hgf, h2 _ (hab.2.2 _ ⟨x, i, hx, hi, rfl⟩)]
  · exact g2 z hz

/-- C109: copying through a third array of the same indices exchanges two arrays. -/
theorem C109_exchange (a b t : ArrayRef) (ha : OwnElements a) (hb : OwnElements b) (ht : OwnElements t) (hat : CopyOf a t)
    (hba : CopyOf b a) (htb : CopyOf t b) (m : Mem α) :
    ∃ x y, a.base = some x ∧ b.base = some y ∧
      (∀ i, InBox a.shape i → exchange a b t m (x + offsetOf a.shape i) = m (y + offsetOf b.shape i)) ∧
      (∀ i, InBox b.shape i → exchange a b t m (y + offsetOf b.shape i) = m (x + offsetOf a.shape i)) ∧
      ∀ z, ¬ ElementAt a z → ¬ ElementAt b z → ¬ ElementAt t z → exchange a b t m z = m z := by
  obtain ⟨x, u, hx, hu, h1, h2⟩ := copy_of id ha.1 ht hat m
  obtain ⟨y, x', hy, hx', g1, g2⟩ := copy_of id hb.1 ha hba (copy id a t m)
  obtain ⟨u', y', hu', hy', k1, k2⟩ := copy_of id ht.1 hb htb (copy id b a (copy id a t m))
  obtain rfl := Option.some.inj (hx.symm.trans hx')
  obtain rfl := Option.some.inj (hy.symm.trans hy')
  obtain rfl := Option.some.inj (hu.symm.trans hu')
  refine ⟨x, y, hx, hy, fun i hi => ?_, fun i hi => ?_, fun z za zb zt => ?_⟩
  · unfold exchange
    have hel : ElementAt a (x + offsetOf a.shape i) := ⟨x, i, hx, hi, rfl⟩
    have hel' : ElementAt b (y + offsetOf b.shape i) := ⟨y, i, hy, hba.2.1 i hi, rfl⟩
    rw [k2 _ (fun h => hba.2.2 _ h hel), g1 i hi, h2 _ (fun h => htb.2.2 _ h hel')]
    rfl
  · unfold exchange
    have hel : ElementAt t (u + offsetOf t.shape i) := ⟨u, i, hu, htb.2.1 i hi, rfl⟩
    rw [k1 i hi, g2 _ (fun h => hat.2.2 _ h hel), h1 i (htb.2.1 i hi)]
    rfl
  · unfold exchange
    rw [k2 z zb, g2 z za, h2 z zt]

/-- C109: `generate` gives the elements the same values if the dims of both views can be arranged so that each steps over everything the
dims before it reach (C61): it calls its function in the order of the addresses. -/
theorem C109_generate {σ : Type} {φ : Index → Index} {a a' : ArrayRef} (H : Relabels φ a a') (hp : Pos a.shape) (hp' : Pos a'.shape)
    (hs : Stackable a.shape) (hs' : Stackable a'.shape) (g : σ → α × σ) (st : σ × Mem α) : generate a' g st = generate a g st := by
  obtain ⟨b, b', hb, hb', -⟩ := H.same
  have h1 := (C61_increasing_iff a b hb hp).2 hs
  have h2 := (C61_increasing_iff a' b' hb' hp').2 hs'
  have : a'.forEachValue = a.forEachValue :=
    (C109_for_each_value H (fun d hd => (hp d hd).le) (fun d hd => (hp' d hd).le)).eq_of_pairwise
      (fun x y _ _ h h' => absurd (lt_trans h h') (lt_irrefl _)) h2 h1
  unfold generate
  rw [this]

/-- C109: so `generate` does not depend on the order of the dims of such an array. -/
theorem C109_generate_transpose {σ : Type} (a : ArrayRef) (hb : a.base ≠ none) (P : List Nat) (hP : P.Perm (List.range a.shape.length))
    (hk : ∀ d ∈ a.shape, Known d) (hp : Pos a.shape) (hs : Stackable a.shape) (g : σ → α × σ) (st : σ × Mem α) :
    generate (a.transpose P) g st = generate a g st := by
  have hlen : P.length = a.shape.length := by rw [hP.length_eq, List.length_range]
  have hperm : List.Perm (a.transpose P).shape a.shape := by
    rw [(C22_transpose_ref a P hP hk).1]
    exact transpose_shape_perm (by rw [hlen]; exact hP) (by omega)
  obtain ⟨p, h1, h2⟩ := hs
  exact C109_generate (C109_transpose a hb P hP hk) hp (fun d hd => hp d (hperm.mem_iff.1 hd)) ⟨p, h1, h2⟩ ⟨p, h1.trans hperm.symm, h2⟩ g st

/-- C109 (negative): `generate` of a reversed array does not give the elements the same values. -/
theorem C109_generate_counterexample :
    ∃ (φ : Index → Index) (a a' : ArrayRef), Relabels φ a a' ∧ Pos a.shape ∧ Injective a.shape ∧
      (generate a (fun s : Int => (s, s + 1)) (0, fun _ => 0)).2 10 = 0 ∧
      (generate a' (fun s : Int => (s, s + 1)) (0, fun _ => 0)).2 10 = 2 := by
  refine ⟨_, _, _, C109_reverse ⟨some 10, [⟨0, 3, 1⟩]⟩ (by simp) [(true, 0)] rfl ?_, by simp [Pos], ?_, by decide +kernel,
    by decide +kernel⟩
  · simp [newShape, Known]
  · exact injective_of_nested (by simp [Nested, span]) (by simp [Moving])

/-- An array of 3 columns and 2 rows, its transpose, and the array with reversed rows that start at 5. -/
example : (let a : ArrayRef := ⟨some 10, [⟨0, 3, 1⟩, ⟨0, 2, 4⟩]⟩
    let t := a.transpose [1, 0]
    let r := a.reinterpretShape (newShape [(true, 5), (false, 0)] a.shape) (newStart [(true, 5), (false, 0)] a.shape)
    t.shape = [⟨0, 2, 4⟩, ⟨0, 3, 1⟩] ∧ r = ⟨some 12, [⟨5, 3, -1⟩, ⟨0, 2, 4⟩]⟩ ∧
    a.at_ [0, 1] = some 14 ∧ t.at_ [1, 0] = some 14 ∧ newIndex [(true, 5), (false, 0)] a.shape [0, 1] = [7, 1] ∧
    r.at_ [7, 1] = some 14) := by
  decide +kernel

/-- Both of them filled. -/
example (v : Int) (m : Mem Int) : fill (ArrayRef.transpose [1, 0] ⟨some 10, [⟨0, 3, 1⟩, ⟨0, 2, 4⟩]⟩) v m =
    fill ⟨some 10, [⟨0, 3, 1⟩, ⟨0, 2, 4⟩]⟩ v m :=
  C109_fill (C109_transpose ⟨some 10, [⟨0, 3, 1⟩, ⟨0, 2, 4⟩]⟩ (by simp) [1, 0] (by decide) (by simp [Known])) (by simp [NonNeg])
    (by
      have : (ArrayRef.transpose [1, 0] ⟨some 10, [⟨0, 3, 1⟩, ⟨0, 2, 4⟩]⟩).shape = [⟨0, 2, 4⟩, ⟨0, 3, 1⟩] := by decide +kernel
      rw [this]
      simp [NonNeg]) v m

/-- Copying with only one side transposed is different: it transposes. -/
example : (let a : ArrayRef := ⟨some 0, [⟨0, 2, 1⟩, ⟨0, 2, 2⟩]⟩
    let b : ArrayRef := ⟨some 10, [⟨0, 2, 1⟩, ⟨0, 2, 2⟩]⟩
    [10, 11, 12, 13].map (copy id a b fun x => x) = [0, 1, 2, 3] ∧
    [10, 11, 12, 13].map (copy id (a.transpose [1, 0]) (b.transpose [1, 0]) fun x => x) = [0, 1, 2, 3] ∧
    [10, 11, 12, 13].map (copy id (a.transpose [1, 0]) b fun x => x) = [0, 2, 1, 3]) := by
  decide +kernel

/-- From a dense array to one with reversed elements, to one with gaps. -/
example : (let m := copyAlong [⟨some 0, [⟨0, 3, 1⟩]⟩, ⟨some 12, [⟨0, 3, -1⟩]⟩, ⟨some 20, [⟨1, 2, 5⟩]⟩] fun x : Int => x
    [10, 11, 12, 20, 25].map m = [2, 1, 0, 1, 2]) := by
  decide +kernel

private theorem exElems (b : Int) {x : Int} (h : ElementAt ⟨some b, [⟨0, 3, 1⟩]⟩ x) : b ≤ x ∧ x < b + 3 := by
  obtain ⟨b', i, hb, hi, rfl⟩ := h
  obtain rfl := Option.some.inj hb
  obtain ⟨j, i, rfl, hj, hi⟩ := inBox_cons_iff.1 hi
  rw [inBox_nil] at hi
  subst hi
  simp only [offsetOf]
  dsimp only at hj
  omega

private theorem exCopyOf {a b : Int} (h : a + 3 ≤ b ∨ b + 3 ≤ a) : CopyOf ⟨some a, [⟨0, 3, 1⟩]⟩ ⟨some b, [⟨0, 3, 1⟩]⟩ :=
  ⟨rfl, fun _ h => h, fun x h1 h2 => by
    have := exElems a h1
    have := exElems b h2
    omega⟩

private theorem exOwn (b : Int) : OwnElements ⟨some b, [⟨0, 3, 1⟩]⟩ :=
  ⟨by simp, by simp, injective_of_nested (by simp [Nested, span]) (by simp [Moving])⟩

/-- Three vectors of 3 elements satisfy the conditions of `C109_exchange`, `C109_chain` and `C109_round_trip`. -/
example (m : Mem Int) : exchange ⟨some 0, [⟨0, 3, 1⟩]⟩ ⟨some 3, [⟨0, 3, 1⟩]⟩ ⟨some 6, [⟨0, 3, 1⟩]⟩ m 1 = m 4 ∧
    exchange ⟨some 0, [⟨0, 3, 1⟩]⟩ ⟨some 3, [⟨0, 3, 1⟩]⟩ ⟨some 6, [⟨0, 3, 1⟩]⟩ m 4 = m 1 ∧
    copyAlong [⟨some 0, [⟨0, 3, 1⟩]⟩, ⟨some 3, [⟨0, 3, 1⟩]⟩, ⟨some 6, [⟨0, 3, 1⟩]⟩] m 7 = m 1 := by
  obtain ⟨x, y, hx, hy, h1, h2, -⟩ := C109_exchange ⟨some 0, [⟨0, 3, 1⟩]⟩ ⟨some 3, [⟨0, 3, 1⟩]⟩ ⟨some 6, [⟨0, 3, 1⟩]⟩ (exOwn 0) (exOwn 3)
    (exOwn 6) (exCopyOf (by decide)) (exCopyOf (by decide)) (exCopyOf (by decide)) m
  cases hx
  cases hy
  have h3 := (C109_chain ⟨some 0, [⟨0, 3, 1⟩]⟩ [⟨some 3, [⟨0, 3, 1⟩]⟩, ⟨some 6, [⟨0, 3, 1⟩]⟩] (by simp)
    (by intro c hc; simp at hc; rcases hc with rfl | rfl <;> exact exOwn _)
    (by simp [exCopyOf]) m).1 ⟨some 6, [⟨0, 3, 1⟩]⟩ (by simp) [1] 0 6 rfl rfl (by simp [InBox])
  have g1 := h1 [1] (by simp [InBox])
  have g2 := h2 [1] (by simp [InBox])
  simp [offsetOf] at h3 g1 g2
  exact ⟨g1, g2, h3⟩

end Nda
