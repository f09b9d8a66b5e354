import Verif.Lemmas.ViewChains
import Verif.Props.ArrayViews
import Verif.Props.MakeCopy
/-
C80: chains of views.  `transpose`, `reorder`, crops and slices, `crop` and `slice_channel` of images and
`convert_shape` applied one after the other give a view whose elements are elements of the array, at the places that
composing the documented meanings of the steps says; and what is done through the view is done to these elements.
-/
namespace Nda
open Spec

variable {V : Type}

/-- C80: a chain of views.  The indices of the view are mapped, without collisions, to indices of the array, and the
address of an element of the view is the address of the element of the array it means.  The view has no negative
extents and no unknown strides. -/
theorem C80_view (ops : List ViewOp) (a : ArrayRef) (hn : NonNeg a.shape) (hk : ∀ d ∈ a.shape, Known d)
    (hok : ViewChainOk ops a.shape) :
    let r := applyViews ops a
    (∀ j, InBox r.shape j → InBox a.shape (chainIndex ops a.shape j) ∧
      r.at_ j = a.at_ (chainIndex ops a.shape j)) ∧
    (∀ i j, InBox r.shape i → InBox r.shape j → chainIndex ops a.shape i = chainIndex ops a.shape j → i = j) ∧
    NonNeg r.shape ∧ (∀ d ∈ r.shape, Known d) ∧ (r.base = none ↔ a.base = none) := by
  obtain ⟨b, s⟩ := a
  obtain ⟨he, hv⟩ := viewChain_of hn hk hok
  dsimp only
  rw [he]
  refine ⟨fun j hj => ⟨hv.inside j hj, ?_⟩, hv.inj, hv.nonNeg, hv.known, by cases b <;> simp⟩
  unfold ArrayRef.at_
  simp only [flatOffset_eq, Option.map_map]
  rw [hv.offset j hj]
  cases b with
  | none => rfl
  | some b => simp only [Option.map_some, Function.comp, Option.some.injEq]; ring

/-- C80: if different indices of the array are different elements, this is so for every chain of views. -/
theorem C80_injective (ops : List ViewOp) (a : ArrayRef) (hn : NonNeg a.shape) (hk : ∀ d ∈ a.shape, Known d)
    (hok : ViewChainOk ops a.shape) (hinj : Injective a.shape) : Injective (applyViews ops a).shape := by
  obtain ⟨b, s⟩ := a
  obtain ⟨he, hv⟩ := viewChain_of hn hk hok
  rw [he]
  intro i j hi hj e
  refine hv.inj i j hi hj (hinj _ _ (hv.inside i hi) (hv.inside j hj) ?_)
  rw [hv.offset i hi, hv.offset j hj, e]

/-- C80: doing first some steps and then more is doing them all, and the indices are those of the chain. -/
theorem C80_append (p q : List ViewOp) (a : ArrayRef) (hn : NonNeg a.shape) (hk : ∀ d ∈ a.shape, Known d)
    (hp : ViewChainOk p a.shape) (hq : ViewChainOk q (applyViews p a).shape) :
    ViewChainOk (p ++ q) a.shape ∧ applyViews (p ++ q) a = applyViews q (applyViews p a) ∧
    ∀ j, chainIndex (p ++ q) a.shape j = chainIndex p a.shape (chainIndex q (applyViews p a).shape j) := by
  obtain ⟨b, s⟩ := a
  refine ⟨?_, by simp [applyViews, List.foldl_append], ?_⟩
  · induction p generalizing b s with
    | nil => exact hq
    | cons op p ih =>
      obtain ⟨r, o, he, hv⟩ := viewOp_step hn hk hp.1
      have hr : (op.apply ⟨some 0, s⟩).shape = r := by rw [he]
      refine ⟨hp.1, ?_⟩
      have h2 := hp.2
      have h3 : ViewChainOk q (applyViews p (op.apply ⟨b, s⟩)).shape := hq
      rw [hr] at h2 ⊢
      rw [he] at h3
      exact ih _ _ hv.nonNeg hv.known h2 h3
  · induction p generalizing b s with
    | nil => intro j; rfl
    | cons op p ih =>
      intro j
      obtain ⟨r, o, he, hv⟩ := viewOp_step hn hk hp.1
      have hr : (op.apply ⟨some 0, s⟩).shape = r := by rw [he]
      have h2 := hp.2
      have h3 : ViewChainOk q (applyViews p (op.apply ⟨b, s⟩)).shape := hq
      rw [hr] at h2
      rw [he] at h3
      have := ih _ _ hv.nonNeg hv.known h2 h3 j
      show origIndex s op (chainIndex (p ++ q) (op.apply ⟨some 0, s⟩).shape j) =
        origIndex s op (chainIndex p (op.apply ⟨some 0, s⟩).shape
          (chainIndex q (applyViews p (op.apply ⟨b, s⟩)).shape j))
      rw [hr, he, this]

/-! ### In programs -/

theorem chain_facts {ty : Types V} {w : World V} (hI : Inv ty w) {x : Nat} {a : Arr} (ha : w.vars x = some a)
    (hb : a.base ≠ none) {ops : List ViewOp} (hok : ViewChainOk ops a.shape) :
    ViewOf a.shape (viewShape ops a.shape) (viewOffset ops a.shape) (chainIndex ops a.shape) := by
  have hg := hI.good x a ha
  exact (viewChain_of hg.shape.nonNeg (hg.known hb) hok).2

theorem refElem_chain {w : World V} {x : Nat} {a : Arr} (ha : w.vars x = some a) {r : Shape} {off : Int}
    {φ : Index → Index} (hv : ViewOf a.shape r off φ) {j : Index} (hj : InBox r j) :
    refElem w x r off j = elem w x (φ j) := by
  unfold refElem elem
  rw [get_ok ha, bind_ok, bind_ok]
  cases a.base with
  | none => rfl
  | some p =>
    simp only [flatOffset_eq]
    rw [hv.offset j hj, add_assoc]

theorem Spec.ViewOf.refers {a : Arr} (hb : a.base ≠ none) {r : Shape} {off : Int} {φ : Index → Index}
    (hv : ViewOf a.shape r off φ) {j : Index} (hj : InBox r j) : Refers a r off j :=
  ⟨hb, φ j, hv.inside j hj, hv.offset j hj⟩

theorem Spec.ViewOf.part {a : Arr} (hb : a.base ≠ none) {r : Shape} {off : Int} {φ : Index → Index}
    (hv : ViewOf a.shape r off φ) : PartOk a r off := ⟨hv.nonNeg, fun _ hj => hv.refers hb hj⟩

theorem Spec.ViewOf.injective {s r : Shape} {off : Int} {φ : Index → Index} (hv : ViewOf s r off φ)
    (hinj : Injective s) : Injective r := fun i j hi hj e =>
  hv.inj i j hi hj (hinj _ _ (hv.inside i hi) (hv.inside j hj) (by rw [hv.offset i hi, hv.offset j hj, e]))

theorem Spec.ViewOf.outside {a : Arr} {r : Shape} {off : Int} {φ : Index → Index} (hv : ViewOf a.shape r off φ)
    (hinj : Injective a.shape) {i : Index} (hi : InBox a.shape i) (h : ∀ j, InBox r j → i ≠ φ j) :
    Outside r off a i := fun j hj e =>
  h j hj (hinj i _ hi (hv.inside j hj) (by rw [hv.offset j hj, e]))

/-- C80: `fill` through a chain of views of array `x` sets exactly the elements that the indices of the view mean. -/
theorem C80_fill (ty : Types V) (hdef : TypesOk ty) (w : World V) (hw : Reachable ty w) (x : Nat) (a : Arr)
    (ha : w.vars x = some a) (hb : a.base ≠ none) (hinj : Injective a.shape) (ops : List ViewOp)
    (hok : ViewChainOk ops a.shape) (v : V) :
    ∃ w', fillChain ty x ops v w = .ok w' ∧ Reachable ty w' ∧ w'.vars = w.vars ∧
      (∀ j, InBox (viewShape ops a.shape) j → elem w' x (chainIndex ops a.shape j) = .ok v) ∧
      (∀ i, InBox a.shape i → (∀ j, InBox (viewShape ops a.shape) j → i ≠ chainIndex ops a.shape j) →
        elem w' x i = elem w x i) ∧
      ∀ z c i, z ≠ x → w.vars z = some c → InBox c.shape i → elem w' z i = elem w z i := by
  have hv := chain_facts (hw.inv hdef) ha hb hok
  obtain ⟨w', h1, h2, h3, h4, h5⟩ := C58_fill ty hdef w hw x a ha _ _ (hv.part hb) v
  refine ⟨w', ?_, h2, h3, ?_, ?_, ?_⟩
  · unfold fillChain; rw [get_ok ha, bind_ok]; exact h1
  · intro j hj
    rw [← refElem_chain (by rw [h3]; exact ha) hv hj]
    exact h4 j hj
  · intro i hi h
    exact h5 x a i ha hi fun _ => hv.outside hinj hi h
  · intro z c i hz hc hi
    exact h5 z c i hc hi fun e => absurd e hz

/-- C80: `transform_index` through a chain of views: the function is given the index in the view, and the value goes
to the element that this index means. -/
theorem C80_transform_index (ty : Types V) (hdef : TypesOk ty) (w : World V) (hw : Reachable ty w) (x : Nat) (a : Arr)
    (ha : w.vars x = some a) (hb : a.base ≠ none) (hinj : Injective a.shape) (ops : List ViewOp)
    (hok : ViewChainOk ops a.shape) (f : Index → V) :
    ∃ w', transformChain ty x ops f w = .ok w' ∧ Reachable ty w' ∧ w'.vars = w.vars ∧
      (∀ j, InBox (viewShape ops a.shape) j → elem w' x (chainIndex ops a.shape j) = .ok (f j)) ∧
      (∀ i, InBox a.shape i → (∀ j, InBox (viewShape ops a.shape) j → i ≠ chainIndex ops a.shape j) →
        elem w' x i = elem w x i) ∧
      ∀ z c i, z ≠ x → w.vars z = some c → InBox c.shape i → elem w' z i = elem w z i := by
  have hv := chain_facts (hw.inv hdef) ha hb hok
  obtain ⟨w', h1, h2, h3, h4, h5⟩ := C58_transform ty hdef w hw x a ha _ _ (hv.part hb) f
  refine ⟨w', ?_, h2, h3, ?_, ?_, ?_⟩
  · unfold transformChain; rw [get_ok ha, bind_ok]; exact h1
  · intro j hj
    rw [← refElem_chain (by rw [h3]; exact ha) hv hj]
    exact h4 (hv.injective hinj) j hj
  · intro i hi h
    exact h5 x a i ha hi fun _ => hv.outside hinj hi h
  · intro z c i hz hc hi
    exact h5 z c i hc hi fun e => absurd e hz

/-- C80: `for_each_value` through a chain of views: the function is called once for each index of the view, with the
element that this index means. -/
theorem C80_for_each_value (ty : Types V) (hdef : TypesOk ty) (w : World V) (hw : Reachable ty w) (x : Nat) (a : Arr)
    (ha : w.vars x = some a) (hb : a.base ≠ none) (hinj : Injective a.shape) (ops : List ViewOp)
    (hok : ViewChainOk ops a.shape) (f : Nat → V → V) :
    ∃ w' l, forEachChain ty x ops f w = .ok w' ∧ Reachable ty w' ∧ w'.vars = w.vars ∧
      Enumerates (viewShape ops a.shape) l ∧
      (∀ k j, l[k]? = some j →
        elem w' x (chainIndex ops a.shape j) = (elem w x (chainIndex ops a.shape j)).map (f k)) ∧
      (∀ i, InBox a.shape i → (∀ j, InBox (viewShape ops a.shape) j → i ≠ chainIndex ops a.shape j) →
        elem w' x i = elem w x i) ∧
      ∀ z c i, z ≠ x → w.vars z = some c → InBox c.shape i → elem w' z i = elem w z i := by
  have hv := chain_facts (hw.inv hdef) ha hb hok
  obtain ⟨w', l, h1, h2, h3, h0, h4, h5⟩ := C58_for_each ty hdef w hw x a ha _ _ (hv.part hb) f
  refine ⟨w', l, ?_, h2, h3, h0, ?_, ?_, ?_⟩
  · unfold forEachChain; rw [get_ok ha, bind_ok]; exact h1
  · intro k j hj
    have hj' := (h0.2 j).1 (List.mem_of_getElem? hj)
    rw [← refElem_chain (by rw [h3]; exact ha) hv hj', ← refElem_chain ha hv hj']
    exact h4 (hv.injective hinj) k j hj
  · intro i hi h
    exact h5 x a i ha hi fun _ => hv.outside hinj hi h
  · intro z c i hz hc hi
    exact h5 z c i hc hi fun e => absurd e hz

/-- C80: `copy` from a chain of views of array `y` to a chain of views of array `x`, which may be the same array if no
element is both copied to and, at another index, copied from. -/
theorem C80_copy (ty : Types V) (hdef : TypesOk ty) (w : World V) (hw : Reachable ty w) (y x : Nat) (o a : Arr)
    (ho : w.vars y = some o) (ha : w.vars x = some a) (hbo : o.base ≠ none) (hba : a.base ≠ none)
    (hinj : Injective a.shape) (src dst : List ViewOp) (hsrc : ViewChainOk src o.shape)
    (hdst : ViewChainOk dst a.shape)
    (hsub : ∀ j, InBox (viewShape dst a.shape) j → InBox (viewShape src o.shape) j)
    (hrank : (viewShape src o.shape).length = (viewShape dst a.shape).length)
    (halias : y = x → ∀ i j, InBox (viewShape dst a.shape) i → InBox (viewShape dst a.shape) j →
      chainIndex dst a.shape i = chainIndex src o.shape j → i = j) :
    ∃ w', copyChain ty y src x dst w = .ok w' ∧ Reachable ty w' ∧ w'.vars = w.vars ∧
      (∀ j, InBox (viewShape dst a.shape) j →
        elem w' x (chainIndex dst a.shape j) = elem w y (chainIndex src o.shape j)) ∧
      (∀ i, InBox a.shape i → (∀ j, InBox (viewShape dst a.shape) j → i ≠ chainIndex dst a.shape j) →
        elem w' x i = elem w x i) ∧
      ∀ z c i, z ≠ x → w.vars z = some c → InBox c.shape i → elem w' z i = elem w z i := by
  have hI := hw.inv hdef
  have hs := chain_facts hI ho hbo hsrc
  have hd := chain_facts hI ha hba hdst
  obtain ⟨w', h1, h2, h3, h4, h5⟩ := C58_copy ty hdef w hw y x o a ho ha _ _ _ _
    (⟨hrank, hs.nonNeg, hd.nonNeg, fun i hi => ⟨hsub i hi, hs.refers hbo (hsub i hi), hd.refers hba hi⟩⟩ :
      PairOk o (viewShape src o.shape) (viewOffset src o.shape) a (viewShape dst a.shape) (viewOffset dst a.shape))
  refine ⟨w', ?_, h2, h3, ?_, ?_, ?_⟩
  · unfold copyChain; rw [get_ok ho, bind_ok, get_ok ha, bind_ok]; exact h1
  · intro j hj
    rw [← refElem_chain (by rw [h3]; exact ha) hd hj, ← refElem_chain ho hs (hsub j hj)]
    refine h4 (hd.injective hinj) ?_ j hj
    intro e i j hi hj e'
    have hoa : o = a := by rw [e, ha] at ho; exact (Option.some.inj ho).symm
    refine halias e i j hi hj ?_
    refine hinj _ _ (hd.inside i hi) (by rw [← hoa]; exact hs.inside j (hsub j hj)) ?_
    rw [hd.offset i hi, e']
    have := hs.offset j (hsub j hj)
    rw [← this, hoa]
  · intro i hi h
    exact h5 x a i ha hi fun _ => hd.outside hinj hi h
  · intro z c i hz hc hi
    exact h5 z c i hc hi fun e => absurd e hz

/-- C80: `make_copy` of a chain of views makes a new array with the values of the elements that its indices mean in
the view; the array that was viewed and all others are unchanged. -/
theorem C80_make_copy (ty : Types V) (hdef : TypesOk ty) (w : World V) (hw : Reachable ty w) (y : Nat) (o : Arr)
    (ho : w.vars y = some o) (hb : o.base ≠ none) (src : List ViewOp) (hok : ViewChainOk src o.shape) (s : Shape)
    (al : Nat) (hs : ShapeOk ty s) (hinj : Injective s.resolve)
    (hrank : (viewShape src o.shape).length = List.length s)
    (hsub : ∀ j, InBox s j → InBox (viewShape src o.shape) j) :
    ∃ w' a', makeCopyChain ty y src s al w = .ok w' ∧ Reachable ty w' ∧ w'.vars w.nextVar = some a' ∧
      a'.shape = s.resolve ∧ a'.alloc.arena = al ∧
      (∀ j, InBox s j → elem w' w.nextVar j = elem w y (chainIndex src o.shape j)) ∧
      ∀ z, z ≠ w.nextVar → w'.vars z = w.vars z ∧ ∀ i, elem w' z i = elem w z i := by
  have hv := chain_facts (hw.inv hdef) ho hb hok
  obtain ⟨w', a', h1, h2, h3, h4, h5, h6, h7, _⟩ := C55_copy ty hdef w hw y o ho (viewShape src o.shape)
    (viewOffset src o.shape) s al ⟨hs, hrank, hv.nonNeg, fun i hi => ⟨hsub i hi, hb, chainIndex src o.shape i,
      hv.inside i (hsub i hi), hv.offset i (hsub i hi)⟩⟩
  refine ⟨w', a', ?_, h2, h3, h4, h5, ?_, h7⟩
  · unfold makeCopyChain; rw [get_ok ho, bind_ok]; exact h1
  · intro j hj
    rw [← refElem_chain ho hv (hsub j hj)]
    exact h6 hinj j hj

/-! ### The assertion of `reorder` -/

theorem sum_kept_dropped {s : Shape} {is : List Nat} (hlt : ∀ k ∈ is, k < s.length) (hnd : is.Nodup) (f : Dim → Int) :
    (s.map f).sum = ((s.reorder is).map f).sum +
      (((List.range s.length).filter (fun k => k ∉ is)).map fun k => f (s.getD k default)).sum := by
  have hp : (List.range s.length).Perm (is ++ (List.range s.length).filter (fun k => k ∉ is)) := by
    refine (List.perm_ext_iff_of_nodup List.nodup_range ?_).2 ?_
    · refine List.nodup_append'.2 ⟨hnd, List.nodup_range.filter _, ?_⟩
      intro k h1 h2
      simp at h2
      exact h2.2 h1
    · intro k
      simp only [List.mem_append, List.mem_filter, List.mem_range, decide_eq_true_eq]
      constructor
      · intro h
        by_cases hm : k ∈ is
        · exact Or.inl hm
        · exact Or.inr ⟨h, hm⟩
      · rintro (h | h)
        · exact hlt k h
        · exact h.1
  have e1 := map_range_getD s default
  conv_lhs => rw [← e1]
  rw [List.map_map, (hp.map _).sum_eq, List.map_append, List.sum_append]
  simp [Shape.reorder, Function.comp_def]

theorem sum_le_zero_of {l : List Int} (h : ∀ x ∈ l, x ≤ 0) : l.sum ≤ 0 := by
  induction l with
  | nil => simp
  | cons a l ih =>
    have h1 := h a (by simp)
    have h2 := ih fun x hx => h x (by simp [hx])
    rw [List.sum_cons]; omega

/-- C80: the assertion that `reorder` executes (array.h:3027) holds if the dropped dims have indices. -/
theorem C80_reorder_assert (a : ArrayRef) (is : List Nat) (hk : ∀ d ∈ a.shape, Known d)
    (hok : ViewOpOk a.shape (.reorder is)) :
    a.reinterpretShapeAssert (a.shape.reorder is) 0 = true := by
  obtain ⟨hnd, hlt, hpos⟩ := hok
  have hres : Shape.resolve (a.shape.reorder is) = a.shape.reorder is := by
    apply resolve_of_known
    intro d hd
    obtain ⟨k, hk', rfl⟩ := List.mem_map.1 hd
    exact hk _ (getD_mem (hlt k hk'))
  unfold ArrayRef.reinterpretShapeAssert ArrayRef.reinterpretShape ArrayRef.make Shape.isSubsetOf
  dsimp only
  rw [hres, flatMin_eq, flatMin_eq, flatMax_eq, flatMax_eq, sum_kept_dropped hlt hnd (fun d => (d.extent - 1) * min 0 d.stride),
    sum_kept_dropped hlt hnd (fun d => (d.extent - 1) * max 0 d.stride), Bool.and_eq_true, decide_eq_true_eq,
    decide_eq_true_eq]
  have h1 : (((List.range a.shape.length).filter (fun k => k ∉ is)).map fun k =>
      ((a.shape.getD k default).extent - 1) * min 0 (a.shape.getD k default).stride).sum ≤ 0 := by
    apply sum_le_zero_of
    intro x hx
    obtain ⟨k, hk', rfl⟩ := List.mem_map.1 hx
    simp only [List.mem_filter, List.mem_range, decide_eq_true_eq] at hk'
    have := hpos k hk'.1 hk'.2
    exact mul_nonpos_of_nonneg_of_nonpos (by omega) (min_le_left _ _)
  have h2 : 0 ≤ (((List.range a.shape.length).filter (fun k => k ∉ is)).map fun k =>
      ((a.shape.getD k default).extent - 1) * max 0 (a.shape.getD k default).stride).sum := by
    apply List.sum_nonneg
    intro x hx
    obtain ⟨k, hk', rfl⟩ := List.mem_map.1 hx
    simp only [List.mem_filter, List.mem_range, decide_eq_true_eq] at hk'
    have := hpos k hk'.1 hk'.2
    exact mul_nonneg (by omega) (le_max_left _ _)
  constructor <;> omega

/-- C80 needs the condition on `reorder`: if a dropped dim has no indices, the view has elements although the array has
none.  If the stride of that dim is 0, the assertion of `reorder` holds all the same. -/
theorem C80_reorder_empty_counterexample : ∃ (a : ArrayRef) (is : List Nat),
    is.Nodup ∧ (∀ k ∈ is, k < a.shape.length) ∧ NonNeg a.shape ∧ (∀ d ∈ a.shape, Known d) ∧
    (∀ i, ¬ InBox a.shape i) ∧ a.empty = true ∧ a.reinterpretShapeAssert (a.shape.reorder is) 0 = true ∧
    (a.reorder is).empty = false ∧ InBox (a.reorder is).shape [2] := by
  refine ⟨⟨some 100, [⟨0, 3, 1⟩, ⟨0, 0, 0⟩]⟩, [0], by decide, by decide, ?_, ?_, ?_, by decide, by decide, by decide,
    by decide⟩
  · simp [NonNeg]
  · simp [Known]
  · intro i hi
    match i, hi with
    | [x, y], hi => simp [InBox] at hi; omega

/-! ### Concrete cases -/

/-- Rows 1 and 2 of an image of 4 × 5 pixels with 3 channels, with rows and columns exchanged, and of these channel 1. -/
def exampleChain : List ViewOp := [.crop [.all, .ivl ⟨1, 2⟩, .all], .transpose [1, 0, 2], .sliceChannel 1]

example : ViewChainOk exampleChain [⟨0, 4, 3⟩, ⟨0, 5, 12⟩, ⟨0, 3, 1⟩] :=
  ⟨.cons trivial (.cons (by unfold ArgInside; decide) (.cons trivial .nil)), (by decide : [1, 0, 2].Perm [0, 1, 2]),
    ⟨⟨1, 2, 12⟩, ⟨0, 4, 3⟩, ⟨0, 3, 1⟩, by decide, by decide⟩, trivial⟩
example : viewShape exampleChain [⟨0, 4, 3⟩, ⟨0, 5, 12⟩, ⟨0, 3, 1⟩] = [⟨1, 2, 12⟩, ⟨0, 4, 3⟩] ∧
    chainIndex exampleChain [⟨0, 4, 3⟩, ⟨0, 5, 12⟩, ⟨0, 3, 1⟩] [2, 3] = [3, 2, 1] ∧
    (applyViews exampleChain ⟨some 100, [⟨0, 4, 3⟩, ⟨0, 5, 12⟩, ⟨0, 3, 1⟩]⟩).at_ [2, 3] = some 134 := by
  decide +kernel
/-- A window of an image with its corner at 0, upside down by `reorder`, without channels. -/
example : chainIndex [.cropImage 2 (-1) 9 3 .zero, .reorder [1, 0]] [⟨0, 4, 3⟩, ⟨0, 5, 12⟩, ⟨0, 3, 1⟩] [1, 1] =
    [3, 1, 0] ∧
    viewShape [.cropImage 2 (-1) 9 3 .zero, .reorder [1, 0]] [⟨0, 4, 3⟩, ⟨0, 5, 12⟩, ⟨0, 3, 1⟩] =
      [⟨0, 3, 12⟩, ⟨0, 2, 3⟩] := by decide +kernel

/-- What a program state and a statement give. -/
def afterChain (p : List (Cmd Int)) (f : World Int → Except Fault (World Int)) (x : Nat) : List (Except Fault Int) :=
  [[0, 0], [1, 0], [2, 0], [0, 1], [1, 1], [2, 1]].map fun i => do
    let w ← execAll exampleTypes p World.start
    let w ← f w
    elem w x i

/-- The right two columns of the transposed array with rows 10, 11, 12 and 20, 21, 22 are filled, and values are set
by index. -/
example : afterChain exampleRows (fillChain exampleTypes 0 [.transpose [1, 0], .crop [.all, .ivl ⟨1, 2⟩]] 7) 0 =
    [.ok 10, .ok 7, .ok 7, .ok 20, .ok 7, .ok 7] := by decide +kernel
example : let ops : List ViewOp := [.transpose [1, 0], .crop [.idx 1, .ivl ⟨1, 2⟩]]
    afterChain exampleRows (exec exampleTypes (.transform 0 (viewShape ops [⟨0, 3, 1⟩, ⟨0, 2, 3⟩])
      (viewOffset ops [⟨0, 3, 1⟩, ⟨0, 2, 3⟩]) fun i => 100 + i.headD 0)) 0 =
    [.ok 10, .ok 11, .ok 12, .ok 20, .ok 101, .ok 102] := by
  intro ops
  have h1 : viewShape ops [⟨0, 3, 1⟩, ⟨0, 2, 3⟩] = [⟨1, 2, 1⟩] := by decide +kernel
  have h2 : viewOffset ops [⟨0, 3, 1⟩, ⟨0, 2, 3⟩] = 4 := by decide +kernel
  have h : Shape.forEachIndex [⟨1, 2, 1⟩] = some (boxList [⟨1, 2, 1⟩]) := forEachIndex_eq (by simp [NonNeg])
  simp only [exec, transformRef, h1, h2, h, afterChain]
  decide +kernel
/-- Row 1 is copied to row 0 through slices of the transposed array. -/
example : afterChain exampleRows (copyChain exampleTypes 0 [.transpose [1, 0], .crop [.idx 1, .all]] 0
    [.crop [.all, .idx 0]]) 0 = [.ok 20, .ok 21, .ok 22, .ok 20, .ok 21, .ok 22] := by decide +kernel
/-- A copy of the transposed array. -/
example : (do
    let w ← execAll exampleTypes exampleRows World.start
    let w ← makeCopyChain exampleTypes 0 [.transpose [1, 0]] [⟨0, 2, unresolved⟩, ⟨0, 3, unresolved⟩] 0 w
    elem w 1 [1, 2]) = .ok 22 := by decide +kernel

end Nda
