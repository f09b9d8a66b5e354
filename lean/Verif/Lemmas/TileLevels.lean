import Verif.Spec.TileLevels
import Verif.Props.Tiling
/-
Lemmas for C102.
-/
namespace Nda
open Spec

/-- The pieces of an interval. -/
theorem cut_split {c : Cut} {v : Interval} (hc : CutOk c ⟨0, v.extent, 1⟩) (hv : 0 ≤ v.extent) :
    ∃ l, c.split v = some l ∧ (∀ p ∈ l, PieceExtent c v.extent p.extent ∧ 0 ≤ p.extent ∧ v.min ≤ p.min ∧
        p.min + p.extent ≤ v.min + v.extent) ∧
      (∀ x, InIvl v x → ∃ p ∈ l, InIvl p x) := by
  cases c with
  | keep => exact ⟨[v], rfl, by simp [PieceExtent, hv], fun x hx => ⟨v, by simp, hx⟩⟩
  | dyn n =>
    have hn : 0 < n := hc
    obtain ⟨l', e', h, -⟩ := C24_each_index_once v n hn hv
    refine ⟨_, dynIterate hn hv, ?_, fun x hx => ?_⟩
    · intro p hp
      simp only [dynPieces, List.mem_map, List.mem_range] at hp
      obtain ⟨k, hk, rfl⟩ := hp
      have h1 := mul_lt_of_lt_pieces hn hv hk
      have h0 : 0 ≤ n * (k : Int) := by positivity
      refine ⟨?_, ?_, ?_, ?_⟩
      · rcases le_or_gt (n * k + n) v.extent with h | h
        · exact .inl ⟨min_eq_left (by omega), by omega⟩
        · have e : v.extent % n = v.extent - n * k := by
            have : v.extent = (v.extent - n * k) + n * k := by ring
            rw [this, Int.add_mul_emod_self_left, Int.emod_eq_of_lt (by omega) (by omega)]
            ring
          exact .inr ⟨by show min n _ = _; rw [min_eq_right (by omega), e], by omega⟩
      · show 0 ≤ min n _; exact le_min hn.le (by omega)
      · show v.min ≤ v.min + n * k; omega
      · show v.min + n * k + min n _ ≤ _
        have := min_le_right n (v.extent - n * k); omega
    · obtain rfl : l' = _ := Option.some.inj (e'.symm.trans (dynIterate hn hv))
      exact (h x).1 hx
  | fixed N =>
    have hN : 0 < N := hc.1
    have hNv : N ≤ v.extent := hc.2
    obtain ⟨l, e, -, -, hl⟩ := C25_intervals v N hN hNv
    obtain ⟨l', e', h, -⟩ := C25_cover v N hN hNv
    obtain rfl : l' = l := Option.some.inj (e'.symm.trans e)
    have hext : ∀ p ∈ l', p.extent = N := fun p hp => by
      obtain ⟨k, hk, rfl⟩ := List.getElem_of_mem hp
      exact (hl k _ (List.getElem?_eq_getElem hk)).1
    refine ⟨l', e', fun p hp => ?_, fun x hx => (h x).1 hx⟩
    have hp' := hext p hp
    have a := (h p.min).2 ⟨p, hp, by unfold InIvl; omega⟩
    have b := (h (p.min + p.extent - 1)).2 ⟨p, hp, by unfold InIvl; omega⟩
    unfold InIvl at a b
    exact ⟨hp', by omega, by omega, by omega⟩

theorem cut_split_apart {c : Cut} {v : Interval} (hc : CutOk c ⟨0, v.extent, 1⟩) (hv : 0 ≤ v.extent)
    (hn : NoOverlap c ⟨0, v.extent, 1⟩) {l : List Interval} (e : c.split v = some l) :
    l.Pairwise fun p q => ∀ x, ¬ (InIvl p x ∧ InIvl q x) := by
  cases c with
  | keep =>
    obtain rfl : [v] = l := Option.some.inj e
    simp
  | dyn n =>
    obtain ⟨l', e', -, h⟩ := C24_each_index_once v n hc hv
    obtain rfl : l' = l := Option.some.inj (e'.symm.trans e)
    exact h
  | fixed N =>
    obtain ⟨l', e', -, -, h, -⟩ := cut_args (c := .fixed N) (d := ⟨v.min, v.extent, 1⟩) hc hv
    have e1 : (splitStatic N v).iterate = some l := e
    simp only [Cut.args] at e'
    rw [e1, Option.map_some] at e'
    obtain rfl := Option.some.inj e'
    have := h hn
    rw [List.pairwise_map] at this
    exact this

theorem mapM_some {α β : Type} {f : α → Option β} {l : List α} {r : List β} (h : l.mapM f = some r) :
    List.Forall₂ (fun a b => f a = some b) l r := by
  induction l generalizing r with
  | nil =>
    simp only [List.mapM_nil, Option.pure_def, Option.some.injEq] at h
    subst h; exact .nil
  | cons a l ih =>
    rw [List.mapM_cons] at h
    cases h1 : f a with
    | none => simp [h1] at h
    | some b =>
      cases h2 : l.mapM f with
      | none => simp [h1, h2] at h
      | some bs =>
        simp only [h1, h2, Option.pure_def, Option.bind_eq_bind, Option.bind_some, Option.some.injEq] at h
        subst h
        exact .cons h1 (ih h2)

theorem mapM_of_forall {α β : Type} {f : α → Option β} {l : List α} (h : ∀ a ∈ l, ∃ b, f a = some b) : ∃ r, l.mapM f = some r := by
  induction l with
  | nil => exact ⟨[], rfl⟩
  | cons a l ih =>
    obtain ⟨b, hb⟩ := h a (by simp)
    obtain ⟨r, hr⟩ := ih fun a ha => h a (by simp [ha])
    exact ⟨b :: r, by rw [List.mapM_cons, hb, hr]; rfl⟩

theorem related_right {α β : Type} {R : α → β → Prop} {l : List α} {r : List β} (h : List.Forall₂ R l r) {b : β} (hb : b ∈ r) :
    ∃ a ∈ l, R a b := by
  induction h with
  | nil => cases hb
  | cons h1 _ ih =>
    rcases List.mem_cons.1 hb with rfl | hb
    · exact ⟨_, by simp, h1⟩
    · obtain ⟨a, ha, e⟩ := ih hb
      exact ⟨a, by simp [ha], e⟩

theorem related_left {α β : Type} {R : α → β → Prop} {l : List α} {r : List β} (h : List.Forall₂ R l r) {a : α} (ha : a ∈ l) :
    ∃ b ∈ r, R a b := by
  induction h with
  | nil => cases ha
  | cons h1 _ ih =>
    rcases List.mem_cons.1 ha with rfl | ha
    · exact ⟨_, by simp, h1⟩
    · obtain ⟨b, hb, e⟩ := ih ha
      exact ⟨b, by simp [hb], e⟩

/-- The levels of loops over one interval. -/
theorem splitLevels_ok {cs : List Cut} {v : Interval} (h : LevelsFit cs v.extent) (hv : 0 ≤ v.extent) :
    ∃ l, splitLevels cs v = some l ∧ (∀ p ∈ l, 0 ≤ p.extent ∧ v.min ≤ p.min ∧ p.min + p.extent ≤ v.min + v.extent) ∧
      (∀ x, InIvl v x → ∃ p ∈ l, InIvl p x) ∧
      (LevelsApart cs v.extent → l.Pairwise fun p q => ∀ x, ¬ (InIvl p x ∧ InIvl q x)) := by
  induction cs generalizing v with
  | nil => exact ⟨[v], rfl, by simp [hv], fun x hx => ⟨v, by simp, hx⟩, by simp⟩
  | cons c cs ih =>
    obtain ⟨l, e, h1, h2⟩ := cut_split h.1 hv
    have ih' := fun p (hp : p ∈ l) => ih (v := p) (h.2 _ (h1 p hp).1) (h1 p hp).2.1
    obtain ⟨ls, els⟩ := mapM_of_forall (f := splitLevels cs) (l := l) fun p hp => by
      obtain ⟨r, e, -⟩ := ih' p hp
      exact ⟨r, e⟩
    have hf := mapM_some els
    refine ⟨ls.flatten, by simp [splitLevels, e, els], ?_, ?_, ?_⟩
    · intro p hp
      obtain ⟨r, hr, hpr⟩ := List.mem_flatten.1 hp
      obtain ⟨q, hq, eq⟩ := related_right hf hr
      obtain ⟨r', er, g1, -⟩ := ih' q hq
      obtain rfl : r' = r := Option.some.inj (er.symm.trans eq)
      have a := h1 q hq
      have b := g1 p hpr
      exact ⟨b.1, by omega, by omega⟩
    · intro x hx
      obtain ⟨q, hq, hqx⟩ := h2 x hx
      obtain ⟨r, hr, eq⟩ := related_left hf hq
      obtain ⟨r', er, -, g2, -⟩ := ih' q hq
      obtain rfl : r' = r := Option.some.inj (er.symm.trans eq)
      obtain ⟨p, hp, hpx⟩ := g2 x hqx
      exact ⟨p, List.mem_flatten.2 ⟨_, hr, hp⟩, hpx⟩
    · intro ha
      have hd := cut_split_apart h.1 hv ha.1 e
      rw [List.pairwise_flatten]
      constructor
      · intro r hr
        obtain ⟨q, hq, eq⟩ := related_right hf hr
        obtain ⟨r', er, -, -, g3⟩ := ih' q hq
        obtain rfl : r' = r := Option.some.inj (er.symm.trans eq)
        exact g3 (ha.2 _ (h1 q hq).1)
      · clear els e h2
        induction hf with
        | nil => exact .nil
        | @cons q r l ls hqr hf ihf =>
          rw [List.pairwise_cons] at hd
          refine List.Pairwise.cons ?_ (ihf (fun p hp => h1 p (by simp [hp])) (fun p hp => ih' p (by simp [hp])) hd.2)
          intro r2 hr2 p hp p2 hp2 x hx
          obtain ⟨q2, hq2, eq2⟩ := related_right hf hr2
          have inside : ∀ q' ∈ q :: l, ∀ r', splitLevels cs q' = some r' → ∀ p ∈ r', ∀ x, InIvl p x → InIvl q' x := by
            intro q' hq' r' e' p hp x hx
            obtain ⟨r'', er, g1, -⟩ := ih' q' hq'
            obtain rfl : r'' = r' := Option.some.inj (er.symm.trans e')
            have := g1 p hp
            unfold InIvl at *
            omega
          exact hd.1 q2 hq2 x ⟨inside q (by simp) r hqr p hp x hx.1, inside q2 (by simp [hq2]) r2 eq2 p2 hp2 x hx.2⟩

/-- Each extent that is possible is that of a piece. -/
theorem cut_split_extent {c : Cut} {v : Interval} (hc : CutOk c ⟨0, v.extent, 1⟩) (hv : 0 < v.extent) {l : List Interval}
    (e : c.split v = some l) {x : Int} (hx : PieceExtent c v.extent x) : ∃ p ∈ l, p.extent = x := by
  cases c with
  | keep =>
    obtain rfl : [v] = l := Option.some.inj e
    exact ⟨v, by simp, hx.symm⟩
  | dyn n =>
    have hn : 0 < n := hc
    obtain rfl : _ = l := Option.some.inj ((dynIterate hn hv.le).symm.trans e)
    have key : ∀ k : Nat, n * k < v.extent → (⟨v.min + n * k, min n (v.extent - n * k)⟩ : Interval) ∈ dynPieces n v.min v.extent := by
      intro k hk
      refine List.mem_map.2 ⟨k, List.mem_range.2 ?_, rfl⟩
      by_contra hle
      have := le_mul_of_pieces_le hn hv.le (not_lt.1 hle)
      omega
    rcases hx with ⟨rfl, h⟩ | ⟨rfl, h⟩
    · exact ⟨_, key 0 (by simpa using hv), by simpa using h⟩
    · have h1 := Int.emod_add_mul_ediv v.extent n
      have h2 := Int.emod_nonneg v.extent hn.ne'
      have h3 := Int.emod_lt_of_pos v.extent hn
      have h4 : 0 ≤ v.extent / n := Int.ediv_nonneg hv.le hn.le
      have h5 : (((v.extent / n).toNat : Nat) : Int) = v.extent / n := Int.toNat_of_nonneg h4
      refine ⟨_, key (v.extent / n).toNat (by rw [h5]; omega), ?_⟩
      show min n _ = _
      rw [h5, min_eq_right (by omega)]
      omega
  | fixed N =>
    obtain ⟨p, hp⟩ : ∃ p, p ∈ l := by
      obtain ⟨l', e', -, h⟩ := cut_split hc hv.le
      obtain rfl : l' = l := Option.some.inj (e'.symm.trans e)
      obtain ⟨p, hp, -⟩ := h v.min ⟨le_rfl, by omega⟩
      exact ⟨p, hp⟩
    obtain ⟨l', e', h, -⟩ := cut_split hc hv.le
    obtain rfl : l' = l := Option.some.inj (e'.symm.trans e)
    exact ⟨p, hp, ((h p hp).1 : p.extent = N).trans (hx : x = N).symm⟩

/-- Compile-time factors are positive. -/
def PositiveFactors (cs : List Cut) : Prop := ∀ N, Cut.fixed N ∈ cs → 0 < N

theorem splitLevels_fits {cs : List Cut} (hp : PositiveFactors cs) {v : Interval} (hv : 0 < v.extent) {l : List Interval}
    (h : splitLevels cs v = some l) : LevelsFit cs v.extent := by
  induction cs generalizing v l with
  | nil => trivial
  | cons c cs ih =>
    rw [splitLevels] at h
    cases e : c.split v with
    | none => simp [e] at h
    | some r =>
      cases els : r.mapM (splitLevels cs) with
      | none => simp [e, els] at h
      | some ls =>
        have hc : CutOk c ⟨0, v.extent, 1⟩ := by
          cases c with
          | keep => trivial
          | dyn n =>
            by_contra hn
            have := C24_nonpositive_diverges v n (not_lt.1 hn) hv
            rw [show (splitDynamic v n).iterate = some r from e] at this
            cases this
          | fixed N =>
            refine ⟨hp N (by simp), ?_⟩
            by_contra hn
            have := C25_small_diverges v N hv (not_le.1 hn)
            rw [show (splitStatic N v).iterate = some r from e] at this
            cases this
        refine ⟨hc, fun x hx => ?_⟩
        obtain ⟨p, hpr, rfl⟩ := cut_split_extent hc hv e hx
        obtain ⟨r', -, e'⟩ := related_left (mapM_some els) hpr
        refine ih (fun N hN => hp N (by simp [hN])) ?_ e'
        cases c with
        | keep => exact lt_of_lt_of_eq hv (hx : p.extent = _).symm
        | dyn n =>
          have hn : 0 < n := hc
          rcases hx with ⟨h, -⟩ | ⟨h, h'⟩
          · omega
          · have := Int.emod_nonneg v.extent hn.ne'
            omega
        | fixed N => exact lt_of_lt_of_eq hc.1 (hx : p.extent = N).symm

theorem dynPieces_append {m : Int} (hm : 0 < m) (q : Nat) (lo r : Int) (h : m * q ≤ r) :
    dynPieces m lo r = dynPieces m lo (m * q) ++ dynPieces m (lo + m * q) (r - m * q) := by
  induction q generalizing lo r with
  | zero =>
    have : dynPieces m lo 0 = [] := by unfold dynPieces; rw [pieces_zero hm]; rfl
    simp [this]
  | succ q ih =>
    have e : m * ((q + 1 : Nat) : Int) = m + m * q := by push_cast; ring
    rw [e] at h ⊢
    have h0 : 0 ≤ m * (q : Int) := by positivity
    rw [dynPieces_step hm (by omega : 0 < r), dynPieces_step hm (by omega : 0 < m + m * (q : Int)), min_eq_left (by omega),
      min_eq_left (by omega), ih (lo + m) (r - m) (by omega), List.cons_append]
    congr 2
    · rw [show m + m * (q : Int) - m = m * q by ring]
    · rw [show lo + m + m * (q : Int) = lo + (m + m * q) by ring, show r - m - m * (q : Int) = r - (m + m * q) by ring]

theorem dynPieces_zero {m lo : Int} (hm : 0 < m) : dynPieces m lo 0 = [] := by unfold dynPieces; rw [pieces_zero hm]; rfl

theorem flatMap_dynPieces {n m : Int} (hn : 0 < n) (hm : 0 < m) (hd : m ∣ n) : ∀ (R : Nat) (lo : Int),
    (dynPieces n lo R).flatMap (fun p => dynPieces m p.min p.extent) = dynPieces m lo R := by
  obtain ⟨q, rfl⟩ := hd
  have hq : 0 < q := pos_of_mul_pos_right hn hm.le
  lift q to Nat using hq.le
  intro R
  induction R using Nat.strong_induction_on with
  | _ R ih =>
    intro lo
    rcases Nat.eq_zero_or_pos R with rfl | hR
    · rw [Nat.cast_zero, dynPieces_zero hn, dynPieces_zero hm]; rfl
    · rw [dynPieces_step hn (by exact_mod_cast hR), List.flatMap_cons]
      rcases le_or_gt (R : Int) (m * q) with h | h
      · rw [min_eq_right h, sub_self, dynPieces_zero hn]
        simp
      · rw [min_eq_left h.le, dynPieces_append hm q lo R h.le]
        congr 1
        have := ih (R - (m * q).toNat) (by omega) (lo + m * q)
        rwa [show (((R - (m * (q : Int)).toNat : Nat)) : Int) = R - m * q by omega] at this

theorem dyn_levels {n m : Int} (hn : 0 < n) (hm : 0 < m) {v : Interval} (hv : 0 ≤ v.extent) :
    splitLevels [.dyn n, .dyn m] v =
      some ((dynPieces n v.min v.extent).flatMap fun p => dynPieces m p.min p.extent) := by
  have h1 : ∀ l : List Interval, (∀ p ∈ l, 0 ≤ p.extent) →
      l.mapM (splitLevels [.dyn m]) = some (l.map fun p => dynPieces m p.min p.extent) := by
    intro l
    induction l with
    | nil => intro _; rfl
    | cons p l ih =>
      intro h
      have e : splitLevels [.dyn m] p = some (dynPieces m p.min p.extent) := by
        have h2 : ∀ r : List Interval, (r.mapM (splitLevels [])) = some (r.map fun p => [p]) := by
          intro r
          induction r with
          | nil => rfl
          | cons a r ih => rw [List.mapM_cons, ih]; rfl
        simp only [splitLevels, Cut.split, dynIterate hm (h p (by simp)), Option.bind_eq_bind, Option.bind_some] at h2 ⊢
        rw [h2]
        simp only [Option.bind_some, Option.pure_def, Option.some.injEq]
        rw [← List.flatMap_def, List.flatMap_singleton']
      rw [List.mapM_cons, e, ih fun q hq => h q (by simp [hq])]
      rfl
  have h3 : ∀ p ∈ dynPieces n v.min v.extent, 0 ≤ p.extent := by
    intro p hp
    obtain ⟨l, e, h, -⟩ := cut_split (c := .dyn n) (v := v) hn hv
    obtain rfl : _ = l := Option.some.inj ((dynIterate hn hv).symm.trans e)
    exact (h p hp).2.1
  rw [splitLevels]
  simp only [Cut.split, dynIterate hn hv, Option.bind_eq_bind, Option.bind_some]
  rw [h1 _ h3]
  rfl

/-- The extent of a dim of a tile. -/
theorem crop_extent {t : List Arg} {s : Shape} (ht : List.Forall₂ PieceOf t s) (k : Nat) {d' : Dim} (h : (s.crop t)[k]? = some d') :
    ∃ d a, s[k]? = some d ∧ t[k]? = some a ∧ ((a = .all ∧ d' = d) ∨ ∃ v, a = .ivl v ∧ d'.extent = v.extent) := by
  induction ht generalizing k with
  | nil => rw [crop_nil] at h; simp at h
  | @cons a d as s ha _ ih =>
    rw [crop_cons] at h
    cases k with
    | zero =>
      refine ⟨d, a, rfl, rfl, ?_⟩
      rcases ha with rfl | ⟨v, rfl, -⟩
      · simp only [Arg.rangeWithStride, Arg.skipSlices, List.cons_append, List.getElem?_cons_zero, Option.some.injEq] at h
        exact .inl ⟨rfl, h.symm⟩
      · simp only [Arg.rangeWithStride, Arg.skipSlices, List.cons_append, List.getElem?_cons_zero, Option.some.injEq] at h
        exact .inr ⟨v, rfl, by rw [← h]⟩
    | succ k =>
      have h' : (Shape.crop s as)[k]? = some d' := by
        rcases ha with rfl | ⟨v, rfl, -⟩ <;>
          simpa only [Arg.rangeWithStride, Arg.skipSlices, List.cons_append, List.nil_append, List.getElem?_cons_succ] using h
      obtain ⟨d1, a1, g1, g2, g3⟩ := ih k h'
      exact ⟨d1, a1, by simpa using g1, by simpa using g2, g3⟩

/-- The arguments of a tile come from the loops over the dims. -/
theorem tileLoops_mem {cs : List Cut} {s : Shape} (h : List.Forall₂ CutOk cs s) (hs : NonNeg s) {ts : List (List Arg)}
    (e : tileLoops cs s = some ts) {t : List Arg} (ht : t ∈ ts) (k : Nat) {c : Cut} {d : Dim} {a : Arg} (hc : cs[k]? = some c)
    (hd : s[k]? = some d) (ha : t[k]? = some a) : ∃ l, c.args d = some l ∧ a ∈ l := by
  induction h generalizing ts t k with
  | nil => simp at hc
  | @cons c0 d0 cs s h0 h ih =>
    obtain ⟨l, el, -⟩ := cut_args h0 (hs d0 (by simp))
    obtain ⟨ts', e', -⟩ := tileLoops_ok h fun d hd => hs d (by simp [hd])
    rw [tileLoops_cons el e', Option.some.injEq] at e
    subst e
    obtain ⟨as, has, hm⟩ := List.mem_flatMap.1 ht
    obtain ⟨a0, ha0, rfl⟩ := List.mem_map.1 hm
    cases k with
    | zero =>
      simp only [List.getElem?_cons_zero, Option.some.injEq] at hc hd ha
      subst hc hd ha
      exact ⟨l, el, ha0⟩
    | succ k =>
      simp only [List.getElem?_cons_succ] at hc hd ha
      exact ih (fun d hd => hs d (by simp [hd])) e' has k hc hd ha

theorem args_extent {c : Cut} {d : Dim} (h : CutOk c d) (hd : 0 ≤ d.extent) {l : List Arg} (e : c.args d = some l) {a : Arg}
    (ha : a ∈ l) : (a = .all → PieceExtent c d.extent d.extent) ∧ ∀ v, a = .ivl v → PieceExtent c d.extent v.extent := by
  have key : ∀ c : Cut, (c.args d = (c.split ⟨d.min, d.extent⟩).map (·.map .ivl)) → CutOk c d → c.args d = some l →
      (a = .all → PieceExtent c d.extent d.extent) ∧ ∀ v, a = .ivl v → PieceExtent c d.extent v.extent := by
    intro c e1 hc e
    obtain ⟨l', e', h', -⟩ := cut_split (c := c) (v := ⟨d.min, d.extent⟩) (by cases c <;> exact hc) hd
    rw [e1, e', Option.map_some, Option.some.injEq] at e
    subst e
    obtain ⟨p, hp, rfl⟩ := List.mem_map.1 ha
    refine ⟨fun h => (by cases h), fun v hv => ?_⟩
    cases hv
    exact (h' p hp).1
  cases c with
  | keep =>
    obtain rfl : [Arg.all] = l := Option.some.inj e
    obtain rfl : a = .all := by simpa using ha
    exact ⟨fun _ => rfl, fun v hv => (by cases hv)⟩
  | dyn n => exact key (.dyn n) rfl h e
  | fixed N => exact key (.fixed N) rfl h e

/-- The first level is allowed, and its tiles allow the other ones. -/
theorem levels_step {P : Cut → Dim → Prop} (hP : ∀ c d, P c d ↔ P c ⟨0, d.extent, 1⟩) {cs : List Cut} {rest : List (List Cut)} {s : Shape}
    (h : Levels (AtEach fun c e => P c ⟨0, e, 1⟩) (cs :: rest) s) : List.Forall₂ P cs s := by
  rw [List.forall₂_iff_get]
  refine ⟨h.1 cs (by simp), fun k h1 h2 => ?_⟩
  have := h.2 k s[k] (List.getElem?_eq_getElem h2)
  rw [List.filterMap_cons_some (f := fun x : List Cut => x[k]?) (List.getElem?_eq_getElem h1)] at this
  exact (hP _ _).2 this.1

theorem cutOk_extent (c : Cut) (d : Dim) : CutOk c d ↔ CutOk c ⟨0, d.extent, 1⟩ := by cases c <;> exact Iff.rfl

theorem noOverlap_extent (c : Cut) (d : Dim) : NoOverlap c d ↔ NoOverlap c ⟨0, d.extent, 1⟩ := by cases c <;> exact Iff.rfl

theorem levels_inner {P : Cut → Int → Prop} {cs : List Cut} {rest : List (List Cut)} {s : Shape} (hs : NonNeg s)
    (hc : List.Forall₂ CutOk cs s) (h : Levels (AtEach P) (cs :: rest) s) {ts : List (List Arg)} (e : tileLoops cs s = some ts)
    {t : List Arg} (ht : t ∈ ts) : Levels (AtEach P) rest (s.crop t) := by
  obtain ⟨ts', e', hp, -⟩ := tileLoops_ok hc hs
  obtain rfl : ts' = ts := Option.some.inj (e'.symm.trans e)
  have hpt := hp t ht
  obtain ⟨l1, l2, -⟩ := tiled_fullIndex hpt
  have hlen : List.length (s.crop t) = s.length := by rw [crop_length l1, l2]
  refine ⟨fun cs' hcs' => by rw [hlen]; exact h.1 cs' (by simp [hcs']), fun k d' hd' => ?_⟩
  obtain ⟨d, a, hd, ha, hx⟩ := crop_extent hpt k hd'
  obtain ⟨hk, rfl⟩ := List.getElem?_eq_some_iff.1 hd
  have hk' : k < cs.length := by rw [h.1 cs (by simp)]; exact hk
  have hck : CutOk cs[k] s[k] := (List.forall₂_iff_get.1 hc).2 k hk' hk
  obtain ⟨l, el, hal⟩ := tileLoops_mem hc hs e ht k (List.getElem?_eq_getElem hk') hd ha
  have hext := args_extent hck (hs _ (List.getElem_mem hk)) el hal
  have := h.2 k _ hd
  rw [List.filterMap_cons_some (f := fun x : List Cut => x[k]?) (List.getElem?_eq_getElem hk')] at this
  refine this.2 _ ?_
  rcases hx with ⟨rfl, rfl⟩ | ⟨v, rfl, ev⟩
  · exact hext.1 rfl
  · rw [ev]; exact hext.2 v rfl

/-- Induction over the levels. -/
theorem tileLevels_induction {levels : List (List Cut)} {P : Cut → Int → Prop} (Good : ArrayRef → Prop)
    (hgood : ∀ (a : ArrayRef) (t : List Arg), Good a → NonNeg a.shape → List.Forall₂ PieceOf t a.shape → Good (a.crop t))
    (Result : ArrayRef → List ArrayRef → Prop) (base : ∀ a, Good a → NonNeg a.shape → Result a [a])
    (step : ∀ (a : ArrayRef) (cs : List Cut) (rest : List (List Cut)) (ts : List (List Arg)) (ls : List (List ArrayRef)), Good a →
      NonNeg a.shape → List.Forall₂ CutOk cs a.shape → Levels (AtEach P) (cs :: rest) a.shape → tileLoops cs a.shape = some ts →
      List.Forall₂ (fun t l => Result (a.crop t) l) ts ls → Result a ls.flatten)
    (a : ArrayRef) (ha : Good a) (hs : NonNeg a.shape) (hl : Levels LevelsFit levels a.shape) (hP : Levels (AtEach P) levels a.shape) :
    ∃ l, tileLevels levels a = some l ∧ Result a l := by
  induction levels generalizing a with
  | nil => exact ⟨[a], rfl, base a ha hs⟩
  | cons cs rest ih =>
    have hc : List.Forall₂ CutOk cs a.shape := levels_step cutOk_extent hl
    obtain ⟨ts, e, hp, -⟩ := tileLoops_ok hc hs
    have ih' : ∀ t ∈ ts, ∃ l, tileLevels rest (a.crop t) = some l ∧ Result (a.crop t) l := fun t ht =>
      ih (a.crop t) (hgood a t ha hs (hp t ht)) (tiled_nonNeg (hp t ht) hs) (levels_inner hs hc hl e ht) (levels_inner hs hc hP e ht)
    obtain ⟨ls, els⟩ := mapM_of_forall (f := fun t => tileLevels rest (a.crop t)) (l := ts) fun t ht => by
      obtain ⟨l, e, -⟩ := ih' t ht
      exact ⟨l, e⟩
    refine ⟨ls.flatten, by simp [tileLevels, e, els], step a cs rest ts ls ha hs hc hP e ?_⟩
    have hf := mapM_some els
    clear els e hp
    induction hf with
    | nil => exact .nil
    | @cons t l ts ls h1 _ ihf =>
      obtain ⟨l', e', h'⟩ := ih' t (by simp)
      obtain rfl : l' = l := Option.some.inj (e'.symm.trans h1)
      exact .cons h' (ihf fun t ht => ih' t (by simp [ht]))

/-- Doing something with each tile of a tile. -/
theorem foldl_levels {α : Type} (op : ArrayRef → Mem α → Mem α) (a : ArrayRef) {ts : List (List Arg)} {ls : List (List ArrayRef)}
    (h : List.Forall₂ (fun t l => ∀ m, List.foldl (fun m r => op r m) m l = op (a.crop t) m) ts ls) (m : Mem α) :
    ls.flatten.foldl (fun m r => op r m) m = ts.foldl (fun m t => op (a.crop t) m) m := by
  induction h generalizing m with
  | nil => rfl
  | cons h1 _ ih => rw [List.flatten_cons, List.foldl_append, h1, List.foldl_cons, ih]

end Nda
