import Verif.Spec.Tiling
import Verif.Props.Split
import Verif.Props.Views
import Verif.Props.Algorithms
/-
Lemmas for C77: the pieces of one dim, the tiles of a shape, and effects of operations tile by tile.
-/
namespace Nda
open Spec

/-- The coordinate is in the piece. -/
def ArgHas : Arg → Int → Prop
  | .all, _ => True
  | .ivl v, x => InIvl v x
  | _, _ => False

/-- A piece of `d`: all of it, or an interval inside. -/
def PieceOf (t : Arg) (d : Dim) : Prop :=
  t = .all ∨ ∃ v : Interval, t = .ivl v ∧ 0 ≤ v.extent ∧ d.min ≤ v.min ∧ v.min + v.extent ≤ d.min + d.extent

theorem cut_args {c : Cut} {d : Dim} (h : CutOk c d) (hd : 0 ≤ d.extent) :
    ∃ l, c.args d = some l ∧ (∀ t ∈ l, PieceOf t d) ∧
      (∀ x, d.min ≤ x → x < d.min + d.extent → ∃ t ∈ l, ArgHas t x) ∧
      (NoOverlap c d → l.Pairwise fun t u => ∀ x, ¬ (ArgHas t x ∧ ArgHas u x)) ∧
      PieceCount c d l.length := by
  cases c with
  | keep =>
    refine ⟨[.all], rfl, ?_, ?_, ?_, rfl⟩
    · simp [PieceOf]
    · intro x _ _; exact ⟨.all, by simp, trivial⟩
    · intro _; simp
  | dyn n =>
    obtain ⟨l, h1, h2, _, _, _, h3⟩ := C24_partition ⟨d.min, d.extent⟩ n h hd
    obtain ⟨l', h1', h4, h5⟩ := C24_each_index_once ⟨d.min, d.extent⟩ n h hd
    rw [h1, Option.some.injEq] at h1'
    subst h1'
    have hpos : ∀ {m e : Int} {l : List Interval}, Tiles m l e → ∀ v ∈ l, 0 < v.extent := by
      intro m e l hl
      induction l generalizing m with
      | nil => simp
      | cons i l ih =>
        intro v hv
        rcases List.mem_cons.1 hv with rfl | hv
        · exact hl.2.1
        · exact ih hl.2.2 v hv
    refine ⟨l.map .ivl, by simp only [Cut.args, h1, Option.map_some], ?_, ?_, ?_, by simpa [PieceCount] using h3⟩
    · intro t ht
      obtain ⟨v, hv, rfl⟩ := List.mem_map.1 ht
      have hp := hpos h2 v hv
      have a := (h4 v.min).2 ⟨v, hv, by unfold InIvl; omega⟩
      have b := (h4 (v.min + v.extent - 1)).2 ⟨v, hv, by unfold InIvl; omega⟩
      unfold InIvl at a b
      simp only at a b
      exact .inr ⟨v, rfl, by omega, by omega, by omega⟩
    · intro x hx hx'
      obtain ⟨v, hv, e⟩ := (h4 x).1 ⟨hx, hx'⟩
      exact ⟨_, List.mem_map_of_mem hv, e⟩
    · intro _
      rw [List.pairwise_map]
      exact h5
  | fixed N =>
    obtain ⟨l, h1, _, h3, h2⟩ := C25_intervals ⟨d.min, d.extent⟩ N h.1 h.2
    obtain ⟨l', h1', h4, _⟩ := C25_cover ⟨d.min, d.extent⟩ N h.1 h.2
    rw [h1, Option.some.injEq] at h1'
    subst h1'
    refine ⟨l.map .ivl, by simp only [Cut.args, h1, Option.map_some], ?_, ?_, ?_, by simpa [PieceCount] using h3⟩
    · intro t ht
      obtain ⟨v, hv, rfl⟩ := List.mem_map.1 ht
      have hp : v.extent = N := by
        obtain ⟨k, hk, rfl⟩ := List.getElem_of_mem hv
        exact (h2 k _ (List.getElem?_eq_getElem hk)).1
      have hN := h.1
      have a := (h4 v.min).2 ⟨v, hv, by unfold InIvl; omega⟩
      have b := (h4 (v.min + v.extent - 1)).2 ⟨v, hv, by unfold InIvl; omega⟩
      unfold InIvl at a b
      simp only at a b
      exact .inr ⟨v, rfl, by omega, by omega, by omega⟩
    · intro x hx hx'
      obtain ⟨v, hv, e⟩ := (h4 x).1 ⟨hx, hx'⟩
      exact ⟨_, List.mem_map_of_mem hv, e⟩
    · intro hdvd
      rw [List.pairwise_map]
      have hN := h.1
      obtain ⟨q, hq⟩ := hdvd
      simp only at h2 h3
      have hlen : (l.length : Int) = q := by
        have h31 := h3.1
        have h32 := h3.2
        rw [hq] at h31 h32
        have a : (l.length : Int) - 1 < q := by
          by_contra hc
          have := mul_le_mul_of_nonneg_right (show q ≤ (l.length : Int) - 1 by omega) (show 0 ≤ N by omega)
          linarith [mul_comm N q]
        have b : q ≤ (l.length : Int) := by
          by_contra hc
          have := mul_lt_mul_of_pos_right (show (l.length : Int) < q by omega) hN
          linarith [mul_comm N q]
        omega
      have hmin : ∀ (k : Nat) v, l[k]? = some v → v.min = d.min + N * k ∧ v.extent = N := by
        intro k v hv
        have hk := (List.getElem?_eq_some_iff.1 hv).1
        obtain ⟨e1, e2, e3⟩ := h2 k v hv
        refine ⟨?_, e1⟩
        by_cases hl : k + 1 < l.length
        · exact e2 hl
        · have hl' : k + 1 = l.length := by omega
          rw [e3 hl', hq, ← hlen, ← hl']
          push_cast
          ring
      rw [List.pairwise_iff_getElem]
      rintro j k hj hk hjk x ⟨hx, hy⟩
      obtain ⟨a1, a2⟩ := hmin j _ (List.getElem?_eq_getElem hj)
      obtain ⟨b1, b2⟩ := hmin k _ (List.getElem?_eq_getElem hk)
      have c1 := hx.2
      have c2 := hy.1
      rw [a1, a2] at c1
      rw [b1] at c2
      have := mul_le_mul_of_nonneg_left (show (j : Int) + 1 ≤ k by omega) (show 0 ≤ N by omega)
      have e : N * ((j : Int) + 1) = N * j + N := by ring
      omega

/-- The tile contains the index. -/
abbrev TileHas (t : List Arg) (i : Index) : Prop := List.Forall₂ ArgHas t i

theorem tileLoops_cons {c : Cut} {cs : List Cut} {d : Dim} {s : Shape} {l : List Arg} {ts : List (List Arg)}
    (h1 : c.args d = some l) (h2 : tileLoops cs s = some ts) :
    tileLoops (c :: cs) (d :: s) = some (ts.flatMap fun as => l.map (· :: as)) := by
  rw [tileLoops, h2]
  simp only [h1, Option.pure_def, Option.bind_eq_bind, Option.bind_some]
  have : ∀ ts : List (List Arg), (ts.mapM fun as => some (l.map (· :: as))) = some (ts.map fun as => l.map (· :: as)) := by
    intro ts
    have := List.mapM_pure (m := Option) (l := ts) (f := fun as => l.map (· :: as))
    simpa using this
  rw [this]
  simp [List.flatMap]

theorem tileLoops_ok {cs : List Cut} {s : Shape} (h : List.Forall₂ CutOk cs s) (hs : NonNeg s) :
    ∃ ts, tileLoops cs s = some ts ∧ (∀ t ∈ ts, List.Forall₂ PieceOf t s) ∧
      (∀ i, InBox s i → ∃ t ∈ ts, TileHas t i) ∧
      (List.Forall₂ NoOverlap cs s → ts.Pairwise fun t u => ∀ i, ¬ (TileHas t i ∧ TileHas u i)) ∧
      ∃ ns : List Nat, List.Forall₂ (fun p n => PieceCount p.1 p.2 n) (cs.zip s) ns ∧ ts.length = ns.prod := by
  induction h with
  | nil =>
    refine ⟨[[]], rfl, ?_, ?_, ?_, [], .nil, rfl⟩
    · simp
    · intro i hi
      rw [inBox_nil] at hi
      subst hi
      exact ⟨[], by simp, .nil⟩
    · simp
  | @cons c d cs s hc _ ih =>
    obtain ⟨ts, e, h1, h2, h3, ns, h4, h5⟩ := ih fun d hd => hs d (by simp [hd])
    obtain ⟨l, e', g1, g2, g3, g4⟩ := cut_args hc (hs d (by simp))
    refine ⟨_, tileLoops_cons e' e, ?_, ?_, ?_, l.length :: ns, .cons g4 h4, ?_⟩
    · intro t ht
      obtain ⟨as, has, ht⟩ := List.mem_flatMap.1 ht
      obtain ⟨a, ha, rfl⟩ := List.mem_map.1 ht
      exact .cons (g1 a ha) (h1 as has)
    · intro i hi
      obtain ⟨x, i, rfl, hx, hi⟩ := inBox_cons_iff.1 hi
      obtain ⟨as, has, h⟩ := h2 i hi
      obtain ⟨a, ha, h'⟩ := g2 x hx.1 hx.2
      exact ⟨a :: as, List.mem_flatMap.2 ⟨as, has, List.mem_map_of_mem ha⟩, .cons h' h⟩
    · intro hno
      rw [List.forall₂_cons] at hno
      rw [List.pairwise_flatMap]
      refine ⟨?_, ?_⟩
      · intro as _
        rw [List.pairwise_map]
        refine (g3 hno.1).imp ?_
        intro a b hab i hi
        cases i with
        | nil => cases hi.1
        | cons x i => exact hab x ⟨(List.forall₂_cons.1 hi.1).1, (List.forall₂_cons.1 hi.2).1⟩
      · refine (h3 hno.2).imp ?_
        intro as bs hab t ht u hu i hi
        obtain ⟨a, _, rfl⟩ := List.mem_map.1 ht
        obtain ⟨b, _, rfl⟩ := List.mem_map.1 hu
        cases i with
        | nil => cases hi.1
        | cons x i => exact hab i ⟨(List.forall₂_cons.1 hi.1).2, (List.forall₂_cons.1 hi.2).2⟩
    · rw [List.length_flatMap]
      simp only [List.length_map]
      rw [List.map_const', List.sum_replicate, h5, List.prod_cons, smul_eq_mul, mul_comm]

section tile
variable {t : List Arg} {s : Shape}

theorem tiled_fullIndex (ht : List.Forall₂ PieceOf t s) : t.length = s.length ∧ keptRank t = s.length ∧
    ∀ j : Index, j.length = s.length → fullIndex t j = j := by
  induction ht with
  | nil => refine ⟨rfl, rfl, ?_⟩; intro j hj; rw [List.length_eq_zero_iff.1 hj]; rfl
  | @cons a d as s ha _ ih =>
    obtain ⟨h1, h2, h3⟩ := ih
    refine ⟨by simp [h1], ?_, ?_⟩
    · rcases ha with rfl | ⟨v, rfl, _⟩ <;> simp [keptRank, h2]
    · intro j hj
      obtain ⟨x, j, rfl⟩ := List.exists_cons_of_length_eq_add_one hj
      have := h3 j (by simpa using hj)
      rcases ha with rfl | ⟨v, rfl, _⟩ <;> simp [fullIndex, this]

theorem tiled_inBox_iff (ht : List.Forall₂ PieceOf t s) (j : Index) :
    InBox (s.crop t) j ↔ InBox s j ∧ TileHas t j := by
  induction ht generalizing j with
  | nil =>
    rw [crop_nil, inBox_nil]
    constructor
    · rintro rfl; exact ⟨rfl, .nil⟩
    · exact fun h => h.1
  | @cons a d as s ha _ ih =>
    rw [crop_cons]
    rcases ha with rfl | ⟨v, rfl, h0, h1, h2⟩
    · simp only [Arg.rangeWithStride, Arg.skipSlices, List.cons_append, List.nil_append]
      rw [inBox_cons_iff, inBox_cons_iff]
      constructor
      · rintro ⟨x, j, rfl, hx, hj⟩
        exact ⟨⟨x, j, rfl, hx, ((ih j).1 hj).1⟩, .cons trivial ((ih j).1 hj).2⟩
      · rintro ⟨⟨x, j, rfl, hx, hj⟩, h⟩
        exact ⟨x, j, rfl, hx, (ih j).2 ⟨hj, (List.forall₂_cons.1 h).2⟩⟩
    · simp only [Arg.rangeWithStride, Arg.skipSlices, List.cons_append, List.nil_append]
      rw [inBox_cons_iff, inBox_cons_iff]
      constructor
      · rintro ⟨x, j, rfl, hx, hj⟩
        simp only at hx
        exact ⟨⟨x, j, rfl, by omega, ((ih j).1 hj).1⟩, .cons hx ((ih j).1 hj).2⟩
      · rintro ⟨⟨x, j, rfl, hx, hj⟩, h⟩
        exact ⟨x, j, rfl, (List.forall₂_cons.1 h).1, (ih j).2 ⟨hj, (List.forall₂_cons.1 h).2⟩⟩

theorem tiled_nonNeg (ht : List.Forall₂ PieceOf t s) (hs : NonNeg s) : NonNeg (s.crop t) := by
  induction ht with
  | nil => exact hs
  | @cons a d as s ha _ ih =>
    have := ih fun d hd => hs d (by simp [hd])
    rw [crop_cons]
    intro e he
    rcases ha with rfl | ⟨v, rfl, h0, _⟩
    all_goals
      simp only [Arg.rangeWithStride, Arg.skipSlices, List.cons_append, List.nil_append, List.mem_cons] at he
      rcases he with rfl | he
      · first | exact h0 | exact hs _ (by simp)
      · exact this e he

/-- The base of a tile, and the addresses of its elements. -/
theorem tiled_address {a : ArrayRef} {b : Int} (hb : a.base = some b) (ht : List.Forall₂ PieceOf t a.shape) :
    ∃ b', (a.crop t).base = some b' ∧
      ∀ j : Index, j.length = a.shape.length → b' + offsetOf (a.crop t).shape j = b + offsetOf a.shape j := by
  obtain ⟨h1, h2, h3⟩ := tiled_fullIndex ht
  refine ⟨b + offsetOf a.shape (Shape.minsOfIntervals t a.shape), ?_, fun j hj => ?_⟩
  · unfold ArrayRef.crop pointerAdd; rw [hb, flatOffset_eq]; rfl
  · have := crop_offset h1 j (by rw [h2]; exact hj)
    rw [h3 j hj] at this
    show _ + _ + offsetOf (Shape.crop a.shape t) j = _
    omega

end tile

/-- Tiles of a shape that together contain all of its indices. -/
structure Tiled (s : Shape) (ts : List (List Arg)) : Prop where
  piece : ∀ t ∈ ts, List.Forall₂ PieceOf t s
  cover : ∀ i, InBox s i → ∃ t ∈ ts, TileHas t i

theorem tiled_perm {cs : List Cut} {s : Shape} (h : List.Forall₂ CutOk cs s) (hs : NonNeg s) {ts ts' : List (List Arg)}
    (e : tileLoops cs s = some ts') (hp : ts.Perm ts') :
    Tiled s ts ∧ (List.Forall₂ NoOverlap cs s → ts.Pairwise fun t u => ∀ i, ¬ (TileHas t i ∧ TileHas u i)) := by
  obtain ⟨l, e', h1, h2, h3, _⟩ := tileLoops_ok h hs
  rw [e, Option.some.injEq] at e'
  subst e'
  refine ⟨⟨fun t ht => h1 t (hp.mem_iff.1 ht), fun i hi => ?_⟩, fun hno => ?_⟩
  · obtain ⟨t, ht, h⟩ := h2 i hi
    exact ⟨t, hp.mem_iff.2 ht, h⟩
  · refine (hp.pairwise_iff ?_).2 (h3 hno)
    intro t u htu i hi
    exact htu i ⟨hi.2, hi.1⟩

section
variable {α : Type}

/-- An operation done tile by tile, that gives the elements of the tile at hand the values `F`. -/
theorem fold_tiles {β : Type} (op : β → Mem α → Option (Mem α)) (A : Index → Int) (F : Index → α)
    (P : β → Index → Prop) (Good : Mem α → Prop) (ts : List β)
    (hop : ∀ t ∈ ts, ∀ m, Good m → ∃ m', op t m = some m' ∧ (∀ i, P t i → m' (A i) = F i) ∧
      ∀ x, (∀ i, P t i → x ≠ A i) → m' x = m x)
    (hgood : ∀ t ∈ ts, ∀ m m', Good m → (∀ x, (∀ i, P t i → x ≠ A i) → m' x = m x) → Good m')
    (m : Mem α) (hm : Good m) :
    ∃ m', ts.foldlM (fun m t => op t m) m = some m' ∧
      (∀ x, (∃ t ∈ ts, ∃ i, P t i ∧ x = A i) → ∃ t ∈ ts, ∃ i, P t i ∧ x = A i ∧ m' x = F i) ∧
      ∀ x, (∀ t ∈ ts, ∀ i, P t i → x ≠ A i) → m' x = m x := by
  induction ts generalizing m with
  | nil => exact ⟨m, rfl, by simp, by simp⟩
  | cons t ts ih =>
    obtain ⟨m1, e1, h1, h2⟩ := hop t (by simp) m hm
    obtain ⟨m2, e2, h3, h4⟩ := ih (fun u hu => hop u (by simp [hu])) (fun u hu => hgood u (by simp [hu])) m1
      (hgood t (by simp) m m1 hm h2)
    refine ⟨m2, by rw [List.foldlM_cons, e1]; exact e2, ?_, ?_⟩
    · intro x hx
      by_cases hx' : ∃ u ∈ ts, ∃ i, P u i ∧ x = A i
      · obtain ⟨u, hu, i, hi⟩ := h3 x hx'
        exact ⟨u, by simp [hu], i, hi⟩
      · obtain ⟨u, hu, i, hi, rfl⟩ := hx
        rcases List.mem_cons.1 hu with rfl | hu
        · refine ⟨u, by simp, i, hi, rfl, ?_⟩
          rw [h4 _ fun w hw j hj e => hx' ⟨w, hw, j, hj, e⟩]
          exact h1 i hi
        · exact absurd ⟨u, hu, i, hi, rfl⟩ hx'
    · intro x hx
      rw [h4 x fun u hu => hx u (by simp [hu]), h2 x fun i hi => hx t (by simp) i hi]

theorem foldlM_some_op {β : Type} (op : β → Mem α → Mem α) (ts : List β) (m : Mem α) :
    ts.foldlM (fun m t => some (op t m)) m = some (ts.foldl (fun m t => op t m) m) := by
  induction ts generalizing m with
  | nil => rfl
  | cons t ts ih => rw [List.foldlM_cons, List.foldl_cons]; exact ih _

/-- Two memories with the same values at the elements, both unchanged elsewhere, are equal. -/
theorem mem_ext_elems {s : Shape} {A : Index → Int} {F : Index → α} {m m1 m2 : Mem α}
    (h1 : ∀ i, InBox s i → m1 (A i) = F i) (h1' : ∀ x, (∀ i, InBox s i → x ≠ A i) → m1 x = m x)
    (h2 : ∀ i, InBox s i → m2 (A i) = F i) (h2' : ∀ x, (∀ i, InBox s i → x ≠ A i) → m2 x = m x) : m1 = m2 := by
  funext x
  by_cases hx : ∃ i, InBox s i ∧ x = A i
  · obtain ⟨i, hi, rfl⟩ := hx
    rw [h1 i hi, h2 i hi]
  · have : ∀ i, InBox s i → x ≠ A i := fun i hi e => hx ⟨i, hi, e⟩
    rw [h1' x this, h2' x this]

/-- `fold_tiles` for the tiles of an array. -/
theorem tiled_fold {s : Shape} {ts : List (List Arg)} (ht : Tiled s ts) (op : List Arg → Mem α → Option (Mem α))
    (A : Index → Int) (F : Index → α) (Good : Mem α → Prop)
    (hF : ∀ i j, InBox s i → InBox s j → A i = A j → F i = F j)
    (hop : ∀ t ∈ ts, ∀ m, Good m → ∃ m', op t m = some m' ∧ (∀ i, InBox (s.crop t) i → m' (A i) = F i) ∧
      ∀ x, (∀ i, InBox (s.crop t) i → x ≠ A i) → m' x = m x)
    (hgood : ∀ m m', Good m → (∀ x, (∀ i, InBox s i → x ≠ A i) → m' x = m x) → Good m')
    (m : Mem α) (hm : Good m) :
    ∃ m', ts.foldlM (fun m t => op t m) m = some m' ∧ (∀ i, InBox s i → m' (A i) = F i) ∧
      ∀ x, (∀ i, InBox s i → x ≠ A i) → m' x = m x := by
  have hbox : ∀ t ∈ ts, ∀ i, InBox (s.crop t) i → InBox s i := fun t h i hi =>
    ((tiled_inBox_iff (ht.piece t h) i).1 hi).1
  obtain ⟨m', e, h1, h2⟩ := fold_tiles op A F (fun t i => InBox (s.crop t) i) Good ts hop
    (fun t h m m' hm hx => hgood m m' hm fun x hx' => hx x fun i hi => hx' i (hbox t h i hi)) m hm
  refine ⟨m', e, fun i hi => ?_, fun x hx => h2 x fun t h i hi => hx i (hbox t h i hi)⟩
  obtain ⟨t, h, hti⟩ := ht.cover i hi
  obtain ⟨u, hu, j, hj, e1, e2⟩ := h1 (A i) ⟨t, h, i, (tiled_inBox_iff (ht.piece t h) i).2 ⟨hi, hti⟩, rfl⟩
  rw [e2]
  exact hF j i (hbox u hu j hj) hi e1.symm

/-- An elementwise update through a list of addresses. -/
theorem foldl_update (g : α → α) (tr : List Int) (m : Mem α) (x : Int) :
    tr.foldl (fun m x => m.set x (g (m x))) m x = g^[tr.count x] (m x) := by
  induction tr generalizing m with
  | nil => rfl
  | cons y tr ih =>
    rw [List.foldl_cons, ih, List.count_cons]
    unfold Mem.set
    by_cases h : x = y
    · subst h
      simp [Function.iterate_add_apply]
    · rw [if_neg h]
      have : (y == x) = false := by simpa using fun e => h e.symm
      simp [this]

/-- The addresses that loops over all tiles visit. -/
theorem tiled_trace {a : ArrayRef} {b : Int} (hb : a.base = some b) (hs : NonNeg a.shape) {ts : List (List Arg)}
    (ht : Tiled a.shape ts) (hd : ts.Pairwise fun t u => ∀ i, ¬ (TileHas t i ∧ TileHas u i)) :
    (ts.flatMap fun t => (a.crop t).forEachValue).Perm a.forEachValue := by
  have hl : Enumerates a.shape (ts.flatMap fun t => boxList (a.shape.crop t)) := by
    refine ⟨?_, fun i => ?_⟩
    · rw [List.nodup_flatMap]
      refine ⟨fun t _ => boxList_nodup _, ?_⟩
      rw [List.pairwise_iff_getElem] at hd ⊢
      intro j k hj hk hjk i hi hi'
      exact hd j k hj hk hjk i ⟨((tiled_inBox_iff (ht.piece _ (List.getElem_mem hj)) i).1 (mem_boxList.1 hi)).2,
        ((tiled_inBox_iff (ht.piece _ (List.getElem_mem hk)) i).1 (mem_boxList.1 hi')).2⟩
    · rw [List.mem_flatMap]
      constructor
      · rintro ⟨t, h, hi⟩
        exact ((tiled_inBox_iff (ht.piece t h) i).1 (mem_boxList.1 hi)).1
      · intro hi
        obtain ⟨t, h, hti⟩ := ht.cover i hi
        exact ⟨t, h, mem_boxList.2 ((tiled_inBox_iff (ht.piece t h) i).2 ⟨hi, hti⟩)⟩
  refine List.Perm.trans ?_ (C14_for_each_value a b hb hs _ hl).symm
  rw [List.map_flatMap]
  refine List.Perm.flatMap_left _ ?_
  intro t h
  obtain ⟨b', hb', e⟩ := tiled_address hb (ht.piece t h)
  refine (C14_for_each_value (a.crop t) b' hb' (tiled_nonNeg (ht.piece t h) hs) _ (boxList_enumerates _)).trans ?_
  refine List.Perm.of_eq (List.map_congr_left fun i hi => e i ?_)
  have := ((tiled_inBox_iff (ht.piece t h) i).1 (mem_boxList.1 hi)).1
  exact inBox_length this

theorem tiled_trace_mem {a : ArrayRef} {b : Int} (hb : a.base = some b) (hs : NonNeg a.shape) {ts : List (List Arg)}
    (ht : Tiled a.shape ts) (x : Int) :
    x ∈ (ts.flatMap fun t => (a.crop t).forEachValue) ↔ x ∈ a.forEachValue := by
  rw [(C14_calls a b hb hs).2, List.mem_flatMap]
  constructor
  · rintro ⟨t, h, hx⟩
    obtain ⟨b', hb', e⟩ := tiled_address hb (ht.piece t h)
    obtain ⟨i, hi, rfl⟩ := ((C14_calls (a.crop t) b' hb' (tiled_nonNeg (ht.piece t h) hs)).2 x).1 hx
    have hi' := ((tiled_inBox_iff (ht.piece t h) i).1 hi).1
    exact ⟨i, hi', e i (inBox_length hi')⟩
  · rintro ⟨i, hi, rfl⟩
    obtain ⟨t, h, hti⟩ := ht.cover i hi
    obtain ⟨b', hb', e⟩ := tiled_address hb (ht.piece t h)
    exact ⟨t, h, ((C14_calls (a.crop t) b' hb' (tiled_nonNeg (ht.piece t h) hs)).2 _).2
      ⟨i, (tiled_inBox_iff (ht.piece t h) i).2 ⟨hi, hti⟩, (e i (inBox_length hi)).symm⟩⟩

/-- A dim inside another. -/
theorem dims_inside {s s' : Shape} {i0 : Index} (h0 : InBox s i0) (hin : ∀ i, InBox s i → InBox s' i) :
    List.Forall₂ (fun d d' : Dim => d'.min ≤ d.min ∧ d.min + d.extent ≤ d'.min + d'.extent) s s' := by
  induction s generalizing s' i0 with
  | nil =>
    have := hin [] (inBox_nil.2 rfl)
    cases s' with
    | nil => exact .nil
    | cons d s => exact absurd this (by simp [InBox])
  | cons d s ih =>
    obtain ⟨x, i0, rfl, hx, h0⟩ := inBox_cons_iff.1 h0
    cases s' with
    | nil => exact absurd (hin _ (inBox_cons_iff.2 ⟨x, i0, rfl, hx, h0⟩)) (by simp [InBox])
    | cons d' s' =>
      refine .cons ?_ (ih h0 fun i hi => ?_)
      · have a := (hin (d.min :: i0) ⟨by omega, h0⟩).1
        have b := (hin ((d.min + d.extent - 1) :: i0) ⟨by omega, h0⟩).1
        omega
      · exact (hin (x :: i) ⟨hx, hi⟩).2

theorem piece_inside {t : List Arg} {s s' : Shape} (ht : List.Forall₂ PieceOf t s)
    (h : List.Forall₂ (fun d d' : Dim => d'.min ≤ d.min ∧ d.min + d.extent ≤ d'.min + d'.extent) s s') :
    List.Forall₂ PieceOf t s' := by
  induction ht generalizing s' with
  | nil => cases h; exact .nil
  | cons ha _ ih =>
    cases h with
    | cons h1 h2 =>
      refine .cons ?_ (ih h2)
      rcases ha with rfl | ⟨v, rfl, g0, g1, g2⟩
      · exact .inl rfl
      · exact .inr ⟨v, rfl, g0, by omega, by omega⟩

theorem crop_mins_extents {t : List Arg} {s s' : Shape} (ht : List.Forall₂ PieceOf t s)
    (h1 : s.map Dim.min = s'.map Dim.min) (h2 : s.map Dim.extent = s'.map Dim.extent) :
    (s.crop t).map Dim.min = (s'.crop t).map Dim.min ∧ (s.crop t).map Dim.extent = (s'.crop t).map Dim.extent ∧
      List.Forall₂ PieceOf t s' := by
  induction ht generalizing s' with
  | nil =>
    cases s' with
    | nil => exact ⟨rfl, rfl, .nil⟩
    | cons => simp at h1
  | @cons a d as s ha _ ih =>
    cases s' with
    | nil => simp at h1
    | cons d' s' =>
      simp only [List.map_cons, List.cons.injEq] at h1 h2
      obtain ⟨g1, g2, g3⟩ := ih h1.2 h2.2
      rw [crop_cons, crop_cons]
      rcases ha with rfl | ⟨v, rfl, g⟩
      · simp only [Arg.rangeWithStride, Arg.skipSlices, List.cons_append, List.nil_append, List.map_cons]
        exact ⟨by rw [g1, h1.1], by rw [g2, h2.1], .cons (.inl rfl) g3⟩
      · simp only [Arg.rangeWithStride, Arg.skipSlices, List.cons_append, List.nil_append, List.map_cons]
        exact ⟨by rw [g1], by rw [g2], .cons (.inr ⟨v, rfl, by rw [← h1.1, ← h2.1]; exact g⟩) g3⟩

theorem equalTiles_iff (ne : α → α → Bool) (m : Mem α) (a b : ArrayRef) (ts : List (List Arg)) :
    equalTiles ne m a b ts = true ↔ ∀ t ∈ ts, equal ne m (a.crop t) (b.crop t) = true := by
  unfold equalTiles
  have : ∀ r, (ts.foldl (fun r t => if equal ne m (a.crop t) (b.crop t) then r else false) r = true) ↔
      r = true ∧ ∀ t ∈ ts, equal ne m (a.crop t) (b.crop t) = true := by
    induction ts with
    | nil => simp
    | cons t ts ih =>
      intro r
      rw [List.foldl_cons, ih]
      by_cases h : equal ne m (a.crop t) (b.crop t) = true
      · simp [h]
      · simp [h]
  rw [this]
  simp

end

theorem cut_args_nodup {c : Cut} {d : Dim} (h : CutOk c d) (hd : 0 < d.extent) :
    ∃ l, c.args d = some l ∧ l.Nodup ∧ l ≠ [] := by
  obtain ⟨l, e, _, h2, _⟩ := cut_args h hd.le
  refine ⟨l, e, ?_, ?_⟩
  swap
  · rintro rfl
    obtain ⟨t, ht, _⟩ := h2 d.min (by omega) (by omega)
    simp at ht
  cases c with
  | keep => cases e; simp
  | dyn n =>
    obtain ⟨l1, h1, hT, _⟩ := C24_partition ⟨d.min, d.extent⟩ n h hd.le
    simp only [Cut.args, h1, Option.map_some, Option.some.injEq] at e
    subst e
    refine List.Nodup.map (fun a b hab => by cases hab; rfl) ?_
    have : ∀ {m e : Int} {l : List Interval}, Tiles m l e → l.Nodup ∧ ∀ v ∈ l, m ≤ v.min := by
      intro m e l hl
      induction l generalizing m with
      | nil => simp
      | cons i l ih =>
        obtain ⟨h1, h2, h3⟩ := hl
        obtain ⟨g1, g2⟩ := ih h3
        refine ⟨List.nodup_cons.2 ⟨fun hi => ?_, g1⟩, fun v hv => ?_⟩
        · have := g2 i hi; omega
        · rcases List.mem_cons.1 hv with rfl | hv
          · omega
          · have := g2 v hv; omega
    exact (this hT).1
  | fixed N =>
    obtain ⟨l1, h1, _, h3, hT⟩ := C25_intervals ⟨d.min, d.extent⟩ N h.1 h.2
    simp only [Cut.args, h1, Option.map_some, Option.some.injEq] at e
    subst e
    refine List.Nodup.map (fun a b hab => by cases hab; rfl) ?_
    have hN := h.1
    rw [List.Nodup, List.pairwise_iff_getElem]
    intro j k hj hk hjk hne
    have a := (hT j _ (List.getElem?_eq_getElem hj)).2.1 (by omega)
    have b := (hT k _ (List.getElem?_eq_getElem hk)).2
    rw [hne] at a
    have hm : N * ((j : Int) + 1) ≤ N * k := mul_le_mul_of_nonneg_left (by omega) hN.le
    have e1 : N * ((j : Int) + 1) = N * j + N := by ring
    by_cases hl : k + 1 < l1.length
    · have := b.1 hl
      simp only at a this
      omega
    · have := b.2 (by omega)
      have c1 := h3.1
      have e2 : ((l1.length : Int) - 1) * N = N * k := by
        rw [show (l1.length : Int) - 1 = k by omega]; ring
      rw [e2] at c1
      simp only at a this c1
      omega

/-- The nested loops over ranges. -/
theorem tileLoops_sections {cs : List Cut} {s : Shape} {ls : List (List Arg)}
    (h : List.Forall₂ (fun p l => Cut.args p.1 p.2 = some l) (cs.zip s) ls) (hl : cs.length = s.length) :
    ∃ ts, tileLoops cs s = some ts ∧ (∀ t, t ∈ ts ↔ List.Forall₂ (fun a l => a ∈ l) t ls) ∧
      ((∀ l ∈ ls, l.Nodup) → ts.Nodup) := by
  induction cs generalizing s ls with
  | nil =>
    obtain rfl : s = [] := List.length_eq_zero_iff.1 hl.symm
    cases h
    exact ⟨[[]], rfl, by simp, by simp⟩
  | cons c cs ih =>
    cases s with
    | nil => simp at hl
    | cons d s =>
      rw [List.zip_cons_cons] at h
      cases h with
      | @cons _ l _ ls h1 h2 =>
        obtain ⟨ts, e, g1, g2⟩ := ih h2 (by simpa using hl)
        refine ⟨_, tileLoops_cons h1 e, fun t => ?_, fun hn => ?_⟩
        · rw [List.mem_flatMap]
          constructor
          · rintro ⟨as, has, ht⟩
            obtain ⟨a, ha, rfl⟩ := List.mem_map.1 ht
            exact .cons ha ((g1 as).1 has)
          · intro ht
            cases ht with
            | @cons a _ as _ ha has => exact ⟨as, (g1 as).2 has, List.mem_map_of_mem ha⟩
        · rw [List.nodup_flatMap]
          refine ⟨fun as _ => (hn l (by simp)).map fun a b hab => (List.cons.inj hab).1, ?_⟩
          refine (g2 fun l' hl' => hn l' (by simp [hl'])).imp ?_
          intro as bs hne t ht hu
          obtain ⟨a, _, rfl⟩ := List.mem_map.1 ht
          obtain ⟨b, _, e⟩ := List.mem_map.1 hu
          exact hne (List.cons.inj e).2.symm

end Nda
