import Verif.Lemmas.TileLevels
/-
C102: loops over tiles of tiles.
-/
namespace Nda
open Spec

/-- C102: loops over the pieces of pieces of an interval end exactly if each `split` gets a positive factor and each `split<N>` at least
`N` indices, whatever pieces the loops around it produce. -/
theorem C102_ends (cs : List Cut) (hp : ∀ N, Cut.fixed N ∈ cs → 0 < N) (v : Interval) (hv : 0 < v.extent) :
    (∃ l, splitLevels cs v = some l) ↔ LevelsFit cs v.extent := by
  constructor
  · rintro ⟨l, e⟩
    exact splitLevels_fits hp hv e
  · intro h
    obtain ⟨l, e, -⟩ := splitLevels_ok h hv.le
    exact ⟨l, e⟩

/-- C102: then the innermost pieces contain the indices of the interval and no others; if compile-time factors divide the extents,
each index is in one piece only. -/
theorem C102_pieces (cs : List Cut) (v : Interval) (hv : 0 ≤ v.extent) (h : LevelsFit cs v.extent) :
    ∃ l, splitLevels cs v = some l ∧ (∀ x, InIvl v x ↔ ∃ p ∈ l, InIvl p x) ∧
      (LevelsApart cs v.extent → l.Pairwise fun p q => ∀ x, ¬ (InIvl p x ∧ InIvl q x)) := by
  obtain ⟨l, e, h1, h2, h3⟩ := splitLevels_ok h hv
  refine ⟨l, e, fun x => ⟨h2 x, ?_⟩, h3⟩
  rintro ⟨p, hp, hx⟩
  have := h1 p hp
  unfold InIvl at *
  omega

/-- C102: run-time factors may be combined in any way. -/
theorem C102_runtime (cs : List Cut) (h : ∀ c ∈ cs, c = .keep ∨ ∃ n, c = .dyn n ∧ 0 < n) (e : Int) :
    LevelsFit cs e ∧ LevelsApart cs e := by
  induction cs generalizing e with
  | nil => exact ⟨trivial, trivial⟩
  | cons c cs ih =>
    have ih := ih fun c hc => h c (by simp [hc])
    rcases h c (by simp) with rfl | ⟨n, rfl, hn⟩
    · exact ⟨⟨trivial, fun e' _ => (ih e').1⟩, trivial, fun e' _ => (ih e').2⟩
    · exact ⟨⟨hn, fun e' _ => (ih e').1⟩, trivial, fun e' _ => (ih e').2⟩

/-- C102: compile-time factors may be combined if none is greater than the one before. -/
theorem C102_compile_time (Ns : List Int) (hd : Ns.Pairwise (· ≥ ·)) (hp : ∀ N ∈ Ns, 0 < N) (e : Int) (he : ∀ N ∈ Ns, N ≤ e) :
    LevelsFit (Ns.map .fixed) e := by
  induction Ns generalizing e with
  | nil => trivial
  | cons N Ns ih =>
    rw [List.pairwise_cons] at hd
    refine ⟨⟨hp N (by simp), he N (by simp)⟩, fun e' h => ?_⟩
    obtain rfl : e' = N := h
    exact ih hd.2 (fun N hN => hp N (by simp [hN])) _ hd.1

/-- C102: if the innermost loop is one over `split<N>`, all its intervals have `N` indices. -/
theorem C102_innermost (cs : List Cut) (N : Int) (v : Interval) (hv : 0 ≤ v.extent) (h : LevelsFit (cs ++ [.fixed N]) v.extent) :
    ∃ l, splitLevels (cs ++ [.fixed N]) v = some l ∧ ∀ p ∈ l, p.extent = N := by
  obtain ⟨l, e, -⟩ := splitLevels_ok h hv
  refine ⟨l, e, ?_⟩
  induction cs generalizing v l with
  | nil =>
    obtain ⟨r, er, hr, -⟩ := cut_split h.1 hv
    rw [List.nil_append, splitLevels, er] at e
    cases els : r.mapM (splitLevels []) with
    | none => simp [els] at e
    | some ls =>
      simp only [els, Option.bind_eq_bind, Option.bind_some, Option.pure_def, Option.some.injEq] at e
      subst e
      intro p hp
      obtain ⟨r', hr', hpr⟩ := List.mem_flatten.1 hp
      obtain ⟨q, hq, eq⟩ := related_right (mapM_some els) hr'
      obtain rfl : [q] = r' := Option.some.inj eq
      obtain rfl : p = q := by simpa using hpr
      exact (hr p hq).1
  | cons c cs ih =>
    obtain ⟨r, er, hr, -⟩ := cut_split h.1 hv
    rw [List.cons_append, splitLevels, er] at e
    cases els : r.mapM (splitLevels (cs ++ [.fixed N])) with
    | none => simp [els] at e
    | some ls =>
      simp only [els, Option.bind_eq_bind, Option.bind_some, Option.pure_def, Option.some.injEq] at e
      subst e
      intro p hp
      obtain ⟨r', hr', hpr⟩ := List.mem_flatten.1 hp
      obtain ⟨q, hq, eq⟩ := related_right (mapM_some els) hr'
      exact ih q (hr q hq).2.1 (h.2 _ (hr q hq).1) r' eq p hpr

/-- C102: a loop over pieces of `m` indices inside of one over pieces of `n` is the same as one loop over pieces of `m`
exactly if `m` divides `n` (or there is only one outer piece). -/
theorem C102_merge (v : Interval) (hv : 0 ≤ v.extent) (n m : Int) (hn : 0 < n) (hm : 0 < m) :
    splitLevels [.dyn n, .dyn m] v = (splitDynamic v m).iterate ↔ m ∣ n ∨ v.extent ≤ n := by
  rw [dyn_levels hn hm hv, dynIterate hm hv, Option.some.injEq]
  have e0 : ((v.extent.toNat : Nat) : Int) = v.extent := Int.toNat_of_nonneg hv
  constructor
  · intro h
    by_contra hc
    rw [not_or, not_le] at hc
    obtain ⟨hd, hlt⟩ := hc
    have h1 := Int.emod_add_mul_ediv n m
    have h2 := Int.emod_nonneg n hm.ne'
    have h3 := Int.emod_lt_of_pos n hm
    have h4 : n % m ≠ 0 := fun h => hd (Int.dvd_of_emod_eq_zero h)
    have h5 : (((n / m).toNat : Nat) : Int) = n / m := Int.toNat_of_nonneg (Int.ediv_nonneg hn.le hm.le)
    rw [dynPieces_step hn (by omega), min_eq_left hlt.le, List.flatMap_cons] at h
    have len : ∀ r : Int, 0 ≤ r → m * (n / m) < r → (n / m).toNat < pieces m r := by
      intro r hr hlt
      by_contra hle
      have := le_mul_of_pieces_le hm hr (not_lt.1 hle)
      rw [h5] at this
      omega
    have get : ∀ (lo r : Int), 0 ≤ r → m * (n / m) < r →
        (dynPieces m lo r)[(n / m).toNat]? = some ⟨lo + m * (n / m), min m (r - m * (n / m))⟩ := by
      intro lo r hr hlt
      unfold dynPieces
      rw [List.getElem?_map, List.getElem?_range (len r hr hlt)]
      simp only [Option.map_some, h5]
    have g1 := get v.min v.extent hv (by omega)
    have g2 := get v.min n hn.le (by omega)
    rw [← h, List.getElem?_append_left (by unfold dynPieces; simpa using len n hn.le (by omega)), g2, Option.some.injEq,
      Interval.mk.injEq] at g1
    have := g1.2
    rw [min_eq_right (by omega)] at this
    have := min_le_left m (v.extent - m * (n / m))
    rcases min_choice m (v.extent - m * (n / m)) with h | h <;> omega
  · rintro (h | h)
    · have := flatMap_dynPieces hn hm h v.extent.toNat v.min
      rwa [e0] at this
    · rcases hv.eq_or_lt with h0 | h0
      · rw [← h0, dynPieces_zero hn, dynPieces_zero hm]; rfl
      · rw [dynPieces_step hn h0, min_eq_right h, sub_self, dynPieces_zero hn]
        simp

section
variable {α : Type} {levels : List (List Cut)} {a : ArrayRef}

/-- C102: the tiles of the innermost loops over an array have its elements, with the same indices, and each element is in one of
them. -/
theorem C102_tiles (hs : NonNeg a.shape) (hl : Levels LevelsFit levels a.shape) :
    ∃ l, tileLevels levels a = some l ∧ (∀ r ∈ l, ∀ i, InBox r.shape i → InBox a.shape i ∧ r.at_ i = a.at_ i) ∧
      ∀ i, InBox a.shape i → ∃ r ∈ l, InBox r.shape i := by
  refine tileLevels_induction (fun _ => True) (fun _ _ _ _ _ => trivial) (fun a l => (∀ r ∈ l, ∀ i, InBox r.shape i →
    InBox a.shape i ∧ r.at_ i = a.at_ i) ∧ ∀ i, InBox a.shape i → ∃ r ∈ l, InBox r.shape i) ?_ ?_ a trivial hs hl hl
  · intro a _ _
    exact ⟨fun r hr i hi => by obtain rfl : r = a := by simpa using hr
                               exact ⟨hi, rfl⟩, fun i hi => ⟨a, by simp, hi⟩⟩
  · intro a cs rest ts ls _ hs hc _ e hf
    constructor
    · intro r hr i hi
      obtain ⟨l, hl, hrl⟩ := List.mem_flatten.1 hr
      obtain ⟨t, ht, h⟩ := related_right hf hl
      obtain ⟨h1, h2⟩ := h.1 r hrl i hi
      obtain ⟨h3, h4⟩ := C77_inside hc hs e (List.Perm.refl ts) t ht i h1
      exact ⟨h3, h2.trans h4⟩
    · intro i hi
      obtain ⟨t, ht, hti⟩ := (C77_cover hc hs e (List.Perm.refl ts) i hi).1
      obtain ⟨l, hl, h⟩ := related_left hf ht
      obtain ⟨r, hr, hri⟩ := h.2 i hti
      exact ⟨r, List.mem_flatten.2 ⟨l, hl, hr⟩, hri⟩

/-- C102: filling the innermost tiles is filling the array. -/
theorem C102_fill {b : Int} (hb : a.base = some b) (hs : NonNeg a.shape) (hl : Levels LevelsFit levels a.shape) :
    ∃ l, tileLevels levels a = some l ∧ ∀ (v : α) m, fillAll l v m = fill a v m := by
  refine tileLevels_induction (fun a => ∃ b, a.base = some b) ?_ (fun a l => ∀ (v : α) m, fillAll l v m = fill a v m) ?_ ?_ a ⟨b, hb⟩ hs
    hl hl
  · rintro a t ⟨b, hb⟩ _ ht
    obtain ⟨b', h, -⟩ := tiled_address hb ht
    exact ⟨b', h⟩
  · intro a _ _ v m
    rfl
  · rintro a cs rest ts ls ⟨b, hb⟩ hs hc _ e hf v m
    unfold fillAll
    rw [foldl_levels (fun r m => fill r v m) a (hf.imp fun t l h m => h v m) m]
    exact C77_fill hb hc hs e (List.Perm.refl ts) v m

/-- C102: copying into the innermost tiles is copying into the array. -/
theorem C102_copy {src : ArrayRef} {b sb : Int} (hb : a.base = some b) (hsb : src.base = some sb) (hs : NonNeg a.shape)
    (hi : Injective a.shape) (hlen : List.length src.shape = a.shape.length) (hin : ∀ i, InBox a.shape i → InBox src.shape i)
    (hdis : DisjointElems src.shape sb a.shape b) (hl : Levels LevelsFit levels a.shape) :
    ∃ l, tileLevels levels a = some l ∧ ∀ (conv : α → α) m, copyAll conv src l m = copy conv src a m := by
  refine tileLevels_induction (fun a => ∃ b, a.base = some b ∧ Injective a.shape ∧ List.length src.shape = a.shape.length ∧
    (∀ i, InBox a.shape i → InBox src.shape i) ∧ DisjointElems src.shape sb a.shape b) ?_
    (fun a l => ∀ (conv : α → α) m, copyAll conv src l m = copy conv src a m) ?_ ?_ a ⟨b, hb, hi, hlen, hin, hdis⟩ hs hl hl
  · rintro a t ⟨b, hb, hi, hlen, hin, hdis⟩ _ ht
    obtain ⟨b', h, ha⟩ := tiled_address hb ht
    have inside : ∀ i, InBox (a.crop t).shape i → InBox a.shape i := fun i h => ((tiled_inBox_iff ht i).1 h).1
    have addr : ∀ i, InBox (a.crop t).shape i → b' + offsetOf (a.crop t).shape i = b + offsetOf a.shape i := fun i h =>
      ha i (inBox_length (inside i h))
    obtain ⟨l1, l2, -⟩ := tiled_fullIndex ht
    refine ⟨b', h, ?_, ?_, fun i h => hin i (inside i h), ?_⟩
    · intro i j h1 h2 h3
      exact hi i j (inside i h1) (inside j h2) (by have := addr i h1; have := addr j h2; omega)
    · show _ = List.length (Shape.crop a.shape t)
      rw [crop_length l1, l2, hlen]
    · intro i j h1 h2
      rw [addr j h2]
      exact hdis i j h1 (inside j h2)
  · intro a _ _ conv m
    rfl
  · rintro a cs rest ts ls ⟨b, hb, hi, hlen, hin, hdis⟩ hs hc _ e hf conv m
    unfold copyAll
    rw [foldl_levels (fun r m => copy conv src r m) a (hf.imp fun t l h m => h conv m) m]
    exact C77_copy hb hsb hc hs hi hlen hin hdis e (List.Perm.refl ts) conv m

/-- C102: `for_each_value` of the innermost tiles calls the function with the same elements as that of the array, if compile-time
factors divide the extents. -/
theorem C102_for_each_value {b : Int} (hb : a.base = some b) (hs : NonNeg a.shape) (hl : Levels LevelsFit levels a.shape)
    (hapart : Levels LevelsApart levels a.shape) :
    ∃ l, tileLevels levels a = some l ∧ (l.flatMap fun r => r.forEachValue).Perm a.forEachValue := by
  refine tileLevels_induction (fun a => ∃ b, a.base = some b) ?_ (fun a l => (l.flatMap fun r => r.forEachValue).Perm a.forEachValue) ?_ ?_
    a ⟨b, hb⟩ hs hl hapart
  · rintro a t ⟨b, hb⟩ _ ht
    obtain ⟨b', h, -⟩ := tiled_address hb ht
    exact ⟨b', h⟩
  · intro a _ _
    simp
  · rintro a cs rest ts ls ⟨b, hb⟩ hs hc hP e hf
    refine List.Perm.trans ?_ (C77_for_each_value hb hc hs (levels_step noOverlap_extent hP) e (List.Perm.refl ts))
    clear e
    induction hf with
    | nil => exact List.Perm.refl _
    | cons h1 _ ih =>
      rw [List.flatten_cons, List.flatMap_append, List.flatMap_cons]
      exact h1.append ih

/-- C102: changing the values in the innermost tiles is changing those of the array, if compile-time factors divide the extents
or doing it twice is doing it once. -/
theorem C102_update {b : Int} (hb : a.base = some b) (hs : NonNeg a.shape) (hl : Levels LevelsFit levels a.shape) (g : α → α)
    (hg : Levels LevelsApart levels a.shape ∨ ∀ v, g (g v) = g v) :
    ∃ l, tileLevels levels a = some l ∧ ∀ m, updateAll l g m = updateValues a g m := by
  have hgood : ∀ (a : ArrayRef) (t : List Arg), (∃ b, a.base = some b) → NonNeg a.shape → List.Forall₂ PieceOf t a.shape →
      ∃ b, (a.crop t).base = some b := by
    rintro a t ⟨b, hb⟩ _ ht
    obtain ⟨b', h, -⟩ := tiled_address hb ht
    exact ⟨b', h⟩
  rcases hg with hg | hg
  · refine tileLevels_induction (fun a => ∃ b, a.base = some b) hgood (fun a l => ∀ m, updateAll l g m = updateValues a g m)
      (fun _ _ _ _ => rfl) ?_ a ⟨b, hb⟩ hs hl hg
    rintro a cs rest ts ls ⟨b, hb⟩ hs hc hP e hf m
    unfold updateAll
    rw [foldl_levels (fun r m => updateValues r g m) a hf m]
    exact C77_update hb hc hs g (.inl (levels_step noOverlap_extent hP)) e (List.Perm.refl ts) m
  · refine tileLevels_induction (fun a => ∃ b, a.base = some b) hgood (fun a l => ∀ m, updateAll l g m = updateValues a g m)
      (fun _ _ _ _ => rfl) ?_ a ⟨b, hb⟩ hs hl hl
    rintro a cs rest ts ls ⟨b, hb⟩ hs hc _ e hf m
    unfold updateAll
    rw [foldl_levels (fun r m => updateValues r g m) a hf m]
    exact C77_update hb hc hs g (.inr hg) e (List.Perm.refl ts) m

end

/-- C102, negative part: `for (auto o : split(v, 4)) for (auto i : split<3>(o))` on 10 indices never ends, although both factors
are allowed for the interval: the last outer piece has 2 indices. -/
theorem C102_mixed_counterexample : splitLevels [.dyn 4, .fixed 3] ⟨0, 10⟩ = none := by
  cases h : splitLevels [.dyn 4, .fixed 3] ⟨0, 10⟩ with
  | none => rfl
  | some l =>
    have := splitLevels_fits (by intro N hN; simp at hN; omega) (by decide) h
    have := (this.2 2 (.inr ⟨by decide, by decide⟩)).1.2
    norm_num at this

-- Two indices for the inner loop are fine: pieces of 4, 4 and 2, each of pieces of 2.
example : LevelsFit [.dyn 4, .fixed 2] 10 ∧ LevelsApart [.dyn 4, .fixed 2] 10 := by
  refine ⟨⟨by norm_num [CutOk], ?_⟩, trivial, ?_⟩
  · rintro e' (⟨rfl, -⟩ | ⟨rfl, -⟩) <;> exact ⟨⟨by norm_num, by norm_num⟩, fun _ _ => trivial⟩
  · rintro e' (⟨rfl, -⟩ | ⟨rfl, -⟩) <;> exact ⟨by norm_num [NoOverlap], fun _ _ => trivial⟩

-- Pieces of 6 cut into pieces of 4 are not pieces of 4; pieces of 8 cut so are.
example : splitLevels [.dyn 6, .dyn 4] ⟨0, 10⟩ = some [⟨0, 4⟩, ⟨4, 2⟩, ⟨6, 4⟩] ∧
    splitLevels [.dyn 8, .dyn 4] ⟨0, 10⟩ = (splitDynamic ⟨0, 10⟩ 4).iterate :=
  ⟨dyn_levels (by decide) (by decide) (by decide), (C102_merge _ (by decide) 8 4 (by decide) (by decide)).2 (.inl ⟨2, rfl⟩)⟩

-- A 10 by 7 array in tiles of 4 by 3, these in tiles of 2 by 2 (the rows split at run time).
example (m : Mem Int) : ∃ l, tileLevels [[.dyn 4, .dyn 3], [.fixed 2, .dyn 2]] ⟨some 0, [⟨0, 10, 1⟩, ⟨0, 7, 10⟩]⟩ = some l ∧
    fillAll l 5 m = fill ⟨some 0, [⟨0, 10, 1⟩, ⟨0, 7, 10⟩]⟩ 5 m := by
  obtain ⟨l, e, h⟩ := C102_fill (α := Int) (levels := [[.dyn 4, .dyn 3], [.fixed 2, .dyn 2]])
    (a := ⟨some 0, [⟨0, 10, 1⟩, ⟨0, 7, 10⟩]⟩) rfl (by simp [NonNeg]) ⟨by simp, by
      intro k d hd
      match k, hd with
      | 0, hd =>
        cases hd
        refine ⟨by norm_num [CutOk], ?_⟩
        rintro e' (⟨rfl, -⟩ | ⟨rfl, -⟩) <;> exact ⟨⟨by norm_num, by norm_num⟩, fun _ _ => trivial⟩
      | 1, hd =>
        cases hd
        exact (C102_runtime [.dyn 3, .dyn 2] (by simp) 7).1
      | k + 2, hd => simp at hd⟩
  exact ⟨l, e, h 5 m⟩

end Nda
