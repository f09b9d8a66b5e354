import Verif.Spec.ThreadPrograms
import Verif.Props.Threads
import Verif.Props.EinTiling
import Verif.Props.TileLevels
/-
C108: work divided among threads.
-/
namespace Nda
open Spec
variable {α : Type}

theorem independent_symm {c d : AlgoCall α} (h : Independent c d) : Independent d c := fun x =>
  ⟨fun hd => ⟨fun hc => ((h x).1 hc).1 hd, (h x).2 hd⟩, fun hc => ((h x).1 hc).2⟩

private theorem thread_of_program (p : List (AlgoCall α)) (hv : ∀ c ∈ p, Valid c) :
    ∃ t, programThread p = some t ∧ (∀ r m, runCalls p m = some (Thread.run t r m).2) ∧
      ∀ x ∈ t, ∃ c ∈ p, (x.isWrite = true → Changes c x.address) ∧ (x.isWrite = false → LooksAt c x.address) := by
  induction p with
  | nil => exact ⟨[], rfl, fun r m => rfl, by simp⟩
  | cons c p ih =>
    obtain ⟨t, h1, h2, h3⟩ := C88_call c (hv c (by simp))
    obtain ⟨u, g1, g2, g3⟩ := ih fun c hc => hv c (by simp [hc])
    refine ⟨t ++ u, ?_, fun r m => ?_, fun x hx => ?_⟩
    · unfold programThread at g1 ⊢
      rw [Option.map_eq_some_iff] at g1
      obtain ⟨us, e1, rfl⟩ := g1
      rw [List.mapM_cons, h1, e1]
      rfl
    · unfold runCalls
      rw [List.foldlM_cons, h2 r m, thread_run_append]
      exact g2 _ _
    · rcases List.mem_append.1 hx with hx | hx
      · exact ⟨c, by simp, h3 x hx⟩
      · obtain ⟨d, hd, h⟩ := g3 x hx
        exact ⟨d, by simp [hd], h⟩

private theorem apart_threads {p q : List (AlgoCall α)} {t u : Thread α} (h : Separate p q)
    (ht : ∀ x ∈ t, ∃ c ∈ p, (x.isWrite = true → Changes c x.address) ∧ (x.isWrite = false → LooksAt c x.address))
    (hu : ∀ x ∈ u, ∃ c ∈ q, (x.isWrite = true → Changes c x.address) ∧ (x.isWrite = false → LooksAt c x.address)) (a : Int) :
    (Writes t a → ¬ Touches u a) ∧ (Writes u a → ¬ Touches t a) := by
  constructor
  · rintro ⟨x, hx, rfl, hw⟩ ⟨y, hy, e⟩
    obtain ⟨c, hc, c1, -⟩ := ht x hx
    obtain ⟨d, hd, d1, d2⟩ := hu y hy
    obtain ⟨n1, n2⟩ := (h c hc d hd x.address).1 (c1 hw)
    cases hyw : y.isWrite with
    | true => exact n1 (e ▸ d1 hyw)
    | false => exact n2 (e ▸ d2 hyw)
  · rintro ⟨x, hx, rfl, hw⟩ ⟨y, hy, e⟩
    obtain ⟨d, hd, d1, -⟩ := hu x hx
    obtain ⟨c, hc, c1, c2⟩ := ht y hy
    cases hyw : y.isWrite with
    | true => exact ((h c hc d hd x.address).1 (e ▸ c1 hyw)).1 (d1 hw)
    | false => exact (h c hc d hd x.address).2 (d1 hw) (e ▸ c2 hyw)

/-- Separate programs commute. -/
private theorem calls_comm {p q : List (AlgoCall α)} (hp : ∀ c ∈ p, Valid c) (hq : ∀ c ∈ q, Valid c) (h : Separate p q) (m : Mem α) :
    (runCalls p m).bind (runCalls q) = (runCalls q m).bind (runCalls p) := by
  obtain ⟨t, -, t2, t3⟩ := thread_of_program p hp
  obtain ⟨u, -, u2, u3⟩ := thread_of_program q hq
  have hr : NoRace (threads [t, u]) := noRace_list (by simpa using apart_threads h t3 u3)
  have hf : Finishes (threads [t, u]) (List.replicate t.length 0 ++ List.replicate u.length 1) := by
    intro k
    match k with
    | 0 => simp [threads]
    | 1 => simp [threads, List.count_replicate]
    | k + 2 => simp [threads]
  have r : Int → α := m
  have e := (C88_schedule _ hr _ hf r m).2
  have hk : ∀ k, threads [t, u] k ≠ [] → k = 0 ∨ k = 1 := by
    intro k hk
    match k with
    | 0 => simp
    | 1 => simp
    | k + 2 => simp [threads] at hk
  have e1 := e [0, 1] (by simp) fun k h => by simpa using hk k h
  have e2 := e [1, 0] (by simp) fun k h => by simpa [or_comm] using hk k h
  rw [t2 r, u2 r, Option.bind_some, Option.bind_some, u2 r, t2 r]
  congr 1
  exact e1.symm.trans e2

/-- C108: threads may make several calls each, if no call of one thread changes what a call of another thread changes or looks at: there is no
data race, and however the accesses are interleaved, the memory is as if one thread had made all the calls, thread by thread, in any
order of the threads. -/
theorem C108_programs (ps : List (List (AlgoCall α))) (hv : ∀ p ∈ ps, ∀ c ∈ p, Valid c) (hi : ps.Pairwise Separate) :
    ∃ ts, ps.mapM programThread = some ts ∧ NoRace (threads ts) ∧
      ∀ sched, Finishes (threads ts) sched → ∀ r m, ∃ m', parallel ps sched r m = some m' ∧
        ∀ ps' : List (List (AlgoCall α)), ps'.Perm ps → runCalls ps'.flatten m = some m' := by
  have key : ∃ ts, ps.mapM programThread = some ts ∧
      (∀ r m, runCalls ps.flatten m = some (ts.foldl (fun m t => (Thread.run t r m).2) m)) ∧
      ts.Pairwise (fun t u => ∀ a, (Writes t a → ¬ Touches u a) ∧ (Writes u a → ¬ Touches t a)) ∧
      ∀ u ∈ ts, ∃ q ∈ ps, ∀ x ∈ u, ∃ c ∈ q, (x.isWrite = true → Changes c x.address) ∧ (x.isWrite = false → LooksAt c x.address) := by
    induction ps with
    | nil => exact ⟨[], by simp, fun r m => rfl, by simp, by simp⟩
    | cons p ps ih =>
      rw [List.pairwise_cons] at hi
      obtain ⟨t, h1, h2, h3⟩ := thread_of_program p (hv p (by simp))
      obtain ⟨ts, g1, g2, g3, g4⟩ := ih (fun p hp => hv p (by simp [hp])) hi.2
      refine ⟨t :: ts, by simp [h1, g1], fun r m => ?_, ?_, ?_⟩
      · unfold runCalls
        rw [List.flatten_cons, List.foldlM_append]
        change (runCalls p m).bind _ = _
        rw [h2 r m]
        exact g2 r _
      · rw [List.pairwise_cons]
        refine ⟨fun u hu => ?_, g3⟩
        obtain ⟨q, hq, h⟩ := g4 u hu
        exact apart_threads (hi.1 q hq) h3 h
      · intro u hu
        rcases List.mem_cons.1 hu with rfl | hu
        · exact ⟨p, by simp, h3⟩
        · obtain ⟨q, hq, h⟩ := g4 u hu
          exact ⟨q, by simp [hq], h⟩
  obtain ⟨ts, e, h1, h2, -⟩ := key
  have hrace := noRace_list h2
  refine ⟨ts, e, hrace, fun sched hf r m => ⟨_, by unfold parallel; rw [e]; rfl, fun ps' hp => ?_⟩⟩
  dsimp only
  rw [interleave_list hrace hf, ← h1 r m]
  clear e h1 h2 hrace hf
  have step : ∀ (p : List (AlgoCall α)) (l : List (List (AlgoCall α))) m, runCalls (p :: l).flatten m =
      (runCalls p m).bind (runCalls l.flatten) := by
    intro p l m
    unfold runCalls
    rw [List.flatten_cons, List.foldlM_append]
    rfl
  induction hp generalizing m with
  | nil => rfl
  | cons p _ ih =>
    rw [List.pairwise_cons] at hi
    rw [step, step]
    congr 1
    funext m
    exact ih (fun p hp => hv p (by simp [hp])) hi.2 m
  | swap p q l =>
    rw [List.pairwise_cons] at hi
    rw [step, step]
    have e1 : (fun m => runCalls (p :: l).flatten m) = fun m => (runCalls p m).bind (runCalls l.flatten) := funext (step p l)
    have e2 : (fun m => runCalls (q :: l).flatten m) = fun m => (runCalls q m).bind (runCalls l.flatten) := funext (step q l)
    change (runCalls q m).bind (fun m => runCalls (p :: l).flatten m) = (runCalls p m).bind (fun m => runCalls (q :: l).flatten m)
    rw [e1, e2, ← Option.bind_assoc, ← Option.bind_assoc]
    rw [calls_comm (hv p (by simp)) (hv q (by simp)) (hi.1 q (by simp))]
  | trans h1 h2 ih1 ih2 =>
    have hi' := (h2.pairwise_iff (R := Separate) fun h c hc d hd => independent_symm (h d hd c hc)).2 hi
    rw [ih1 (fun p hp => hv p (h2.mem_iff.1 hp)) hi', ih2 hv hi]

/-- C108: calls none of which changes what another one changes or looks at may be divided among any number of threads, in any way and in
any order within each thread (as when threads take them from a queue): the memory is as if one thread had made them in the order given. -/
theorem C108_queues (cs : List (AlgoCall α)) (hv : ∀ c ∈ cs, Valid c) (hi : cs.Pairwise Independent)
    (qs : List (List (AlgoCall α))) (hq : qs.flatten.Perm cs) :
    ∃ ts, qs.mapM programThread = some ts ∧ NoRace (threads ts) ∧
      ∀ sched, Finishes (threads ts) sched → ∀ r m, parallel qs sched r m = runCalls cs m := by
  have hmem : ∀ q ∈ qs, ∀ c ∈ q, c ∈ cs := fun q h c hc => hq.mem_iff.1 (List.mem_flatten.2 ⟨q, h, hc⟩)
  have hfl : qs.flatten.Pairwise Independent := (hq.pairwise_iff (R := Independent) independent_symm).2 hi
  obtain ⟨ts, e, hr, h⟩ := C108_programs qs (fun q h c hc => hv c (hmem q h c hc)) (List.pairwise_flatten.1 hfl).2
  refine ⟨ts, e, hr, fun sched hf r m => ?_⟩
  obtain ⟨m', e1, e2⟩ := h sched hf r m
  rw [e1, ← e2 qs (List.Perm.refl _)]
  obtain ⟨us, e', hr', h'⟩ := C108_programs (cs.map fun c => [c]) (fun q h c hc => by
      obtain ⟨d, hd, rfl⟩ := List.mem_map.1 h
      exact List.mem_singleton.1 hc ▸ hv d hd) (by
    rw [List.pairwise_map]
    exact hi.imp fun h c hc d hd => by rw [List.mem_singleton.1 hc, List.mem_singleton.1 hd]; exact h)
  have hfin : ∃ sched, Finishes (threads us) sched := by
    refine ⟨(List.range us.length).flatMap fun k => List.replicate (threads us k).length k, fun k => ?_⟩
    by_cases hk : k < us.length
    · rw [List.count_flatMap]
      refine le_trans ?_ (List.single_le_sum (fun _ _ => Nat.zero_le _) _ (List.mem_map_of_mem (List.mem_range.2 hk)))
      simp
    · have h0 : threads us k = [] := List.getD_eq_default _ _ (Nat.le_of_not_lt hk)
      simp [h0]
  obtain ⟨sched', hf'⟩ := hfin
  obtain ⟨m2, e3, e4⟩ := h' sched' hf' r m
  have single : ∀ l : List (AlgoCall α), (l.map fun c => [c]).flatten = l := fun l => by
    induction l with
    | nil => rfl
    | cons c l ih => simp [ih]
  have a1 := e4 (qs.flatten.map fun c => [c]) (hq.map _)
  have a2 := e4 (cs.map fun c => [c]) (List.Perm.refl _)
  rw [single] at a1 a2
  rw [a1, a2]

/-- C108: phases of such programs, where all threads finish before the next phase begins, do what one thread does with all the calls. -/
theorem C108_phases (l : List (List (List (AlgoCall α)) × List Nat)) (hv : ∀ x ∈ l, ∀ p ∈ x.1, ∀ c ∈ p, Valid c)
    (hi : ∀ x ∈ l, x.1.Pairwise Separate) (hf : ∀ x ∈ l, LetsFinish x.1 x.2) (r : Int → α) (m : Mem α) :
    ∃ m', phases l r m = some m' ∧ runCalls (l.map fun x => x.1.flatten).flatten m = some m' := by
  induction l generalizing m with
  | nil => exact ⟨m, rfl, rfl⟩
  | cons x l ih =>
    obtain ⟨ts, e, -, h⟩ := C108_programs x.1 (hv x (by simp)) (hi x (by simp))
    obtain ⟨m1, e1, e2⟩ := h x.2 (hf x (by simp) ts e) r m
    obtain ⟨m2, e3, e4⟩ := ih (fun x hx => hv x (by simp [hx])) (fun x hx => hi x (by simp [hx])) (fun x hx => hf x (by simp [hx])) m1
    refine ⟨m2, ?_, ?_⟩
    · unfold phases
      rw [List.foldlM_cons, e1]
      exact e3
    · unfold runCalls
      rw [List.map_cons, List.flatten_cons, List.foldlM_append]
      change (runCalls x.1.flatten m).bind _ = _
      rw [e2 x.1 (List.Perm.refl _)]
      exact e4

/-- The innermost tiles of tiles of an array have no elements in common. -/
private theorem levels_apart {levels : List (List Cut)} {a : ArrayRef} {b : Int} (hb : a.base = some b) (hs : NonNeg a.shape)
    (hi : Injective a.shape) (hl : Levels LevelsFit levels a.shape) (hapart : Levels LevelsApart levels a.shape) {l : List ArrayRef}
    (e : tileLevels levels a = some l) :
    (∀ t ∈ l, NonNeg t.shape ∧ t.base ≠ none ∧ List.length t.shape = a.shape.length ∧ (∀ i, InBox t.shape i → InBox a.shape i) ∧
      ∀ x, ElementAt t x → ElementAt a x) ∧
    l.Pairwise fun t u => ∀ x, ElementAt t x → ¬ ElementAt u x := by
  obtain ⟨l', e', h1⟩ := tileLevels_induction (P := fun c e => NoOverlap c ⟨0, e, 1⟩) (fun a => ∃ b, a.base = some b) (by
      rintro a t ⟨b, hb⟩ _ ht
      obtain ⟨b', h, -⟩ := tiled_address hb ht
      exact ⟨b', h⟩)
    (fun a l => ∀ t ∈ l, NonNeg t.shape ∧ t.base ≠ none ∧ List.length t.shape = a.shape.length)
    (by
      rintro a ⟨b, hb⟩ hs t ht
      obtain rfl : t = a := by simpa using ht
      exact ⟨hs, by simp [hb], rfl⟩)
    (by
      rintro a cs rest ts ls ⟨b, hb⟩ hs hc _ e hf t ht
      obtain ⟨l, hl, htl⟩ := List.mem_flatten.1 ht
      obtain ⟨u, hu, h⟩ := related_right hf hl
      obtain ⟨g1, g2, g3⟩ := h t htl
      refine ⟨g1, g2, g3.trans ?_⟩
      obtain ⟨ht', -⟩ := tiled_perm hc hs e (List.Perm.refl _)
      obtain ⟨k1, k2, -⟩ := tiled_fullIndex (ht'.piece u hu)
      exact (crop_length k1).trans k2)
    a ⟨b, hb⟩ hs hl hapart
  obtain rfl : l' = l := Option.some.inj (e'.symm.trans e)
  obtain ⟨l2, e2, c1, c2⟩ := C102_tiles hs hl
  obtain rfl : l2 = l' := Option.some.inj (e2.symm.trans e)
  obtain ⟨l3, e3, hperm⟩ := C102_for_each_value hb hs hl hapart
  obtain rfl : l3 = l2 := Option.some.inj (e3.symm.trans e)
  refine ⟨fun t ht => ⟨(h1 t ht).1, (h1 t ht).2.1, (h1 t ht).2.2, fun i hi => (c1 t ht i hi).1, ?_⟩, ?_⟩
  · rintro x ⟨b', i, hb', hi', rfl⟩
    obtain ⟨g1, g2⟩ := c1 t ht i hi'
    refine ⟨b, i, hb, g1, ?_⟩
    simpa [ArrayRef.at_, hb, hb', flatOffset_eq] using g2
  · have hnd : (l3.flatMap fun r => r.forEachValue).Nodup := hperm.nodup_iff.2 (C14_nodup a b hb hs hi)
    rw [List.nodup_flatMap] at hnd
    refine List.Pairwise.imp_of_mem ?_ hnd.2
    rintro t u ht hu hd x ⟨b1, i, k1, k2, k3⟩ ⟨b2, j, j1, j2, j3⟩
    exact hd ((mem_forEachValue k1 (h1 t ht).1 x).2 ⟨i, k2, k3⟩) ((mem_forEachValue j1 (h1 u hu).1 x).2 ⟨j, j2, j3⟩)

section
variable {levels : List (List Cut)} {a : ArrayRef} {b : Int}

/-- C108: the innermost tiles of tiles of an array may be filled by any number of threads, however they are divided among them. -/
theorem C108_fill (hb : a.base = some b) (hs : NonNeg a.shape) (hi : Injective a.shape) (hl : Levels LevelsFit levels a.shape)
    (hapart : Levels LevelsApart levels a.shape) (v : α) :
    ∃ l, tileLevels levels a = some l ∧ ∀ qs : List (List (AlgoCall α)), qs.flatten.Perm (l.map fun t => .fill t v) →
      ∃ ts, qs.mapM programThread = some ts ∧ NoRace (threads ts) ∧
        ∀ sched, Finishes (threads ts) sched → ∀ r m, parallel qs sched r m = some (fill a v m) := by
  obtain ⟨l, e, h⟩ := C102_fill (α := α) hb hs hl
  obtain ⟨h1, h2⟩ := levels_apart hb hs hi hl hapart e
  refine ⟨l, e, fun qs hq => ?_⟩
  obtain ⟨ts, e1, hr, hm⟩ := C108_queues _ (by
      intro c hc
      obtain ⟨t, ht, rfl⟩ := List.mem_map.1 hc
      exact ⟨(h1 t ht).1, (h1 t ht).2.1⟩) (by
      rw [List.pairwise_map]
      exact h2.imp fun h x => ⟨fun hx => ⟨h x hx, id⟩, fun _ => id⟩) qs hq
  refine ⟨ts, e1, hr, fun sched hf r m => ?_⟩
  rw [hm sched hf r m, ← h v m]
  unfold runCalls fillAll
  rw [List.foldlM_map]
  exact foldlM_some_op (fun t m => fill t v m) l m

/-- C108: so may the elements of the innermost tiles be changed by `for_each_value`, each from its old value. -/
theorem C108_update (hb : a.base = some b) (hs : NonNeg a.shape) (hi : Injective a.shape) (hl : Levels LevelsFit levels a.shape)
    (hapart : Levels LevelsApart levels a.shape) (g : α → α) :
    ∃ l, tileLevels levels a = some l ∧ ∀ qs : List (List (AlgoCall α)), qs.flatten.Perm (l.map fun t => .update t g) →
      ∃ ts, qs.mapM programThread = some ts ∧ NoRace (threads ts) ∧
        ∀ sched, Finishes (threads ts) sched → ∀ r m, parallel qs sched r m = some (updateValues a g m) := by
  obtain ⟨l, e, h⟩ := C102_update (α := α) hb hs hl g (.inl hapart)
  obtain ⟨h1, h2⟩ := levels_apart hb hs hi hl hapart e
  refine ⟨l, e, fun qs hq => ?_⟩
  obtain ⟨ts, e1, hr, hm⟩ := C108_queues _ (by
      intro c hc
      obtain ⟨t, ht, rfl⟩ := List.mem_map.1 hc
      exact ⟨(h1 t ht).1, (h1 t ht).2.1⟩) (by
      rw [List.pairwise_map]
      exact h2.imp fun h x => ⟨fun hx => ⟨h x hx, h x hx⟩, fun hx hy => h x hy hx⟩) qs hq
  refine ⟨ts, e1, hr, fun sched hf r m => ?_⟩
  rw [hm sched hf r m, ← h m]
  unfold runCalls updateAll
  rw [List.foldlM_map]
  exact foldlM_some_op (fun t m => updateValues t g m) l m

/-- C108: so may the innermost tiles be copied into. -/
theorem C108_copy {src : ArrayRef} {sb : Int} (hb : a.base = some b) (hsb : src.base = some sb) (hs : NonNeg a.shape)
    (hi : Injective a.shape) (hlen : List.length src.shape = a.shape.length) (hin : ∀ i, InBox a.shape i → InBox src.shape i)
    (hdis : DisjointElems src.shape sb a.shape b) (hl : Levels LevelsFit levels a.shape) (hapart : Levels LevelsApart levels a.shape)
    (conv : α → α) :
    ∃ l, tileLevels levels a = some l ∧ ∀ qs : List (List (AlgoCall α)), qs.flatten.Perm (l.map fun t => .copy conv src t) →
      ∃ ts, qs.mapM programThread = some ts ∧ NoRace (threads ts) ∧
        ∀ sched, Finishes (threads ts) sched → ∀ r m, parallel qs sched r m = some (copy conv src a m) := by
  obtain ⟨l, e, h⟩ := C102_copy (α := α) hb hsb hs hi hlen hin hdis hl
  obtain ⟨h1, h2⟩ := levels_apart hb hs hi hl hapart e
  have hsep : ∀ x, ElementAt a x → ¬ ElementAt src x := by
    rintro x ⟨b', i, hb', hi', rfl⟩ ⟨sb', j, hsb', hj, e'⟩
    obtain rfl := Option.some.inj (hb'.symm.trans hb)
    obtain rfl := Option.some.inj (hsb'.symm.trans hsb)
    exact hdis j i hj hi' e'.symm
  refine ⟨l, e, fun qs hq => ?_⟩
  obtain ⟨ts, e1, hr, hm⟩ := C108_queues _ (by
      intro c hc
      obtain ⟨t, ht, rfl⟩ := List.mem_map.1 hc
      obtain ⟨g1, g2, g3, g4, -⟩ := h1 t ht
      exact ⟨g1, by simp [hsb], g2, hlen.trans g3.symm, fun i hi => hin i (g4 i hi)⟩) (by
      rw [List.pairwise_map]
      refine List.Pairwise.imp_of_mem ?_ h2
      intro t u ht hu h x
      exact ⟨fun hx => ⟨h x hx, hsep x ((h1 t ht).2.2.2.2 x hx)⟩, fun hx => hsep x ((h1 u hu).2.2.2.2 x hx)⟩) qs hq
  refine ⟨ts, e1, hr, fun sched hf r m => ?_⟩
  rw [hm sched hf r m, ← h conv m]
  unfold runCalls copyAll
  rw [List.foldlM_map]
  exact foldlM_some_op (fun t m => copy conv src t m) l m

end

section
variable {dims : List SDim} {is : List Nat} {lb : Int} {rhs : EinExpr α} {cs : List Cut} {ts : List (List Arg)}

/-- C108: the tiles of a result may be filled and reduced by any number of threads: each thread has a queue of tiles, and fills and reduces
them one after the other. -/
theorem C108_reduce (H : TileInput dims is lb rhs) (hc : List.Forall₂ CutOk cs (values dims))
    (hno : List.Forall₂ NoOverlap cs (values dims)) (e : tileLoops cs (values dims) = some ts) (f : α → α → α) (init : Option α)
    (queues : List (List (List Arg))) (hq : queues.flatten.Perm ts) :
    ∃ us, (queues.map fun q => (q.map (reduceCalls f init cs (some lb) dims is rhs)).flatten).mapM programThread = some us ∧
      NoRace (threads us) ∧ ∀ sched, Finishes (threads us) sched → ∀ r m,
        parallel (queues.map fun q => (q.map (reduceCalls f init cs (some lb) dims is rhs)).flatten) sched r m =
          einReduce f ⟨.arr (some lb) dims, is⟩ rhs (fillReduced init ⟨some lb, values dims⟩ m) := by
  have hnn : NonNeg (values dims) := H.input.nonNeg _ (List.mem_cons_self ..)
  obtain ⟨h1, h2⟩ := tiles_apart (a := ⟨some lb, values dims⟩) rfl hc hnn H.input.injective hno e
  obtain ⟨ht, -⟩ := tiled_perm hc hnn e (List.Perm.refl _)
  have hty := tileLoops_typed hc hnn e
  have hel : ∀ t ∈ ts, ∀ x, OpElement (einTile cs (some lb) dims is t : EinOp α) x ↔ ElementAt (ArrayRef.crop ⟨some lb, values dims⟩ t) x := by
    intro t h x
    have hv := (einTile_vals (hty t h) (ht.piece t h) H.fits).1
    unfold OpElement einTile ElementAt
    dsimp only
    unfold values at hv ⊢
    rw [hv]
    rfl
  have hch : ∀ t ∈ ts, ∀ c ∈ reduceCalls f init cs (some lb) dims is rhs t, Valid c ∧
      (∀ x, Changes c x → ElementAt (ArrayRef.crop ⟨some lb, values dims⟩ t) x) ∧
      ∀ x, LooksAt c x → ElementAt (ArrayRef.crop ⟨some lb, values dims⟩ t) x ∨ ∃ o ∈ leaves rhs, OpElement o x := by
    intro t h c hcm
    have hfill : ∀ v : α, Valid (AlgoCall.fill (ArrayRef.crop ⟨some lb, values dims⟩ t) v) ∧
        (∀ x, Changes (AlgoCall.fill (ArrayRef.crop ⟨some lb, values dims⟩ t) v) x → ElementAt (ArrayRef.crop ⟨some lb, values dims⟩ t) x) ∧
        ∀ x, LooksAt (AlgoCall.fill (ArrayRef.crop ⟨some lb, values dims⟩ t) v) x →
          ElementAt (ArrayRef.crop ⟨some lb, values dims⟩ t) x ∨ ∃ o ∈ leaves rhs, OpElement o x :=
      fun v => ⟨⟨(h1 t h).1, (h1 t h).2.1⟩, fun x hx => hx, fun x hx => hx.elim⟩
    obtain ⟨b', hb'⟩ := ne_none_iff.1 (h1 t h).2.1
    have hein : Valid (AlgoCall.ein f (einTile cs (some lb) dims is t) rhs) ∧
        (∀ x, Changes (AlgoCall.ein f (einTile cs (some lb) dims is t) rhs) x → ElementAt (ArrayRef.crop ⟨some lb, values dims⟩ t) x) ∧
        ∀ x, LooksAt (AlgoCall.ein f (einTile cs (some lb) dims is t) rhs) x →
          ElementAt (ArrayRef.crop ⟨some lb, values dims⟩ t) x ∨ ∃ o ∈ leaves rhs, OpElement o x :=
      ⟨⟨einInput_einTile H (hty t h) (ht.piece t h), einAssert_einTile H (hty t h) (ht.piece t h), b', _, by
        unfold einTile; rw [hb']⟩, fun x hx => (hel t h x).1 hx, fun x hx => hx.imp (hel t h x).1 id⟩
    cases init with
    | none =>
      rcases List.mem_singleton.1 hcm with rfl
      exact hein
    | some v =>
      rcases List.mem_cons.1 hcm with rfl | hcm
      · exact hfill v
      · rcases List.mem_singleton.1 hcm with rfl
        exact hein
  have hwhole : ∀ t ∈ ts, ∀ x, ElementAt (ArrayRef.crop ⟨some lb, values dims⟩ t) x → ∀ o ∈ leaves rhs, ¬ OpElement o x := by
    intro t h x hx o ho
    obtain ⟨b', i, hb', hi', rfl⟩ := (h1 t h).2.2 x hx
    exact H.input.separate o ho _ ⟨b', i, hb', hi', rfl⟩
  have hsep : ts.Pairwise fun t u => Separate (reduceCalls f init cs (some lb) dims is rhs t)
      (reduceCalls f init cs (some lb) dims is rhs u) := by
    refine List.Pairwise.imp_of_mem ?_ h2
    intro t u htm hum h c hc' d hd x
    obtain ⟨-, c1, c2⟩ := hch t htm c hc'
    obtain ⟨-, d1, d2⟩ := hch u hum d hd
    refine ⟨fun hx => ⟨fun hy => h x (c1 x hx) (d1 x hy), fun hy => ?_⟩, fun hx hy => ?_⟩
    · rcases d2 x hy with hy | ⟨o, ho, hy⟩
      · exact h x (c1 x hx) hy
      · exact hwhole t htm x (c1 x hx) o ho hy
    · rcases c2 x hy with hy | ⟨o, ho, hy⟩
      · exact h x hy (d1 x hx)
      · exact hwhole u hum x (d1 x hx) o ho hy
  have hsym : ∀ {t u}, Separate (reduceCalls f init cs (some lb) dims is rhs t) (reduceCalls f init cs (some lb) dims is rhs u) →
      Separate (reduceCalls f init cs (some lb) dims is rhs u) (reduceCalls f init cs (some lb) dims is rhs t) :=
    fun h c hc d hd => independent_symm (h d hd c hc)
  have hqs := (List.pairwise_flatten.1 ((hq.pairwise_iff (R := fun t u => Separate (reduceCalls f init cs (some lb) dims is rhs t)
      (reduceCalls f init cs (some lb) dims is rhs u)) hsym).2 hsep)).2
  obtain ⟨us, e1, hr, hm⟩ := C108_programs (queues.map fun q => (q.map (reduceCalls f init cs (some lb) dims is rhs)).flatten) (by
      intro p hp c hcp
      obtain ⟨q, hqm, rfl⟩ := List.mem_map.1 hp
      obtain ⟨l, hl, hcl⟩ := List.mem_flatten.1 hcp
      obtain ⟨t, htq, rfl⟩ := List.mem_map.1 hl
      exact (hch t (hq.mem_iff.1 (List.mem_flatten.2 ⟨q, hqm, htq⟩)) c hcl).1) (by
      rw [List.pairwise_map]
      refine hqs.imp ?_
      intro p q h c hcp d hdq
      obtain ⟨l, hl, hcl⟩ := List.mem_flatten.1 hcp
      obtain ⟨t, htp, rfl⟩ := List.mem_map.1 hl
      obtain ⟨l, hl, hdl⟩ := List.mem_flatten.1 hdq
      obtain ⟨u, huq, rfl⟩ := List.mem_map.1 hl
      exact h t htp u huq c hcl d hdl)
  refine ⟨us, e1, hr, fun sched hf r m => ?_⟩
  obtain ⟨m', e2, e3⟩ := hm sched hf r m
  rw [e2, ← e3 _ (List.Perm.refl _)]
  have flat : ∀ l : List (List (List Arg)), (l.map fun q => (q.map (reduceCalls f init cs (some lb) dims is rhs)).flatten).flatten =
      (l.flatten.map (reduceCalls f init cs (some lb) dims is rhs)).flatten := by
    intro l
    induction l with
    | nil => rfl
    | cons q l ih => simp [ih]
  have run : ∀ (l : List (List Arg)) m, runCalls (l.map (reduceCalls f init cs (some lb) dims is rhs)).flatten m =
      reduceTiles false f init cs (some lb) dims is rhs l m := by
    intro l
    induction l with
    | nil => intro m; rfl
    | cons t l ih =>
      intro m
      unfold runCalls reduceTiles
      rw [List.map_cons, List.flatten_cons, List.foldlM_append, List.foldlM_cons]
      have : List.foldlM (fun m c => AlgoCall.exec c m) m (reduceCalls f init cs (some lb) dims is rhs t) =
          reduceTile false f init cs (some lb) dims is rhs t m := by
        cases init <;> simp [reduceCalls, AlgoCall.exec, reduceTile, requireAssert, einReduceDebug, fillReduced]
      rw [this]
      congr 1
      funext m
      exact ih m
  rw [flat, run]
  have hd : ∀ m, einReduceDebug false f (⟨.arr (some lb) dims, is⟩ : EinOp α) rhs m = einReduce f ⟨.arr (some lb) dims, is⟩ rhs m :=
    fun m => rfl
  cases init with
  | none =>
    rw [C98_no_fill H hc e hq false f (.inl hno) m, hd]
    rfl
  | some v =>
    rw [C98_fill H hc e hq false f v m, hd]
    rfl

end

/-- C108 (negative): without waiting between the phases, a thread that copies what another one fills may get the old or the new value. -/
theorem C108_wait_counterexample :
    ∃ (a b : ArrayRef) (sched sched' : List Nat), LetsFinish [[.fill a (7 : Int)], [.copy id a b]] sched ∧
      LetsFinish [[.fill a (7 : Int)], [.copy id a b]] sched' ∧
      (parallel [[.fill a (7 : Int)], [.copy id a b]] sched (fun _ => 0) fun _ => 0).map (· 10) = some 7 ∧
      (parallel [[.fill a (7 : Int)], [.copy id a b]] sched' (fun _ => 0) fun _ => 0).map (· 10) = some 0 ∧
      ∀ s s', LetsFinish [[.fill a (7 : Int)]] s → LetsFinish [[.copy (id : Int → Int) a b]] s' →
        (phases [([[.fill a (7 : Int)]], s), ([[.copy id a b]], s')] (fun _ => 0) fun _ => 0).map (· 10) = some 7 := by
  have hfin : ∀ sched : List Nat, sched.count 0 = 1 → sched.count 1 = 2 →
      LetsFinish [[.fill ⟨some 0, [⟨0, 1, 1⟩]⟩ (7 : Int)], [.copy id ⟨some 0, [⟨0, 1, 1⟩]⟩ ⟨some 10, [⟨0, 1, 1⟩]⟩]] sched := by
    intro sched h0 h1 ts e k
    have l0 : ((programThread [.fill ⟨some 0, [⟨0, 1, 1⟩]⟩ (7 : Int)]).map List.length) = some 1 := by decide +kernel
    have l1 : ((programThread [.copy (id : Int → Int) ⟨some 0, [⟨0, 1, 1⟩]⟩ ⟨some 10, [⟨0, 1, 1⟩]⟩]).map List.length) = some 2 := by
      decide +kernel
    rw [Option.map_eq_some_iff] at l0 l1
    obtain ⟨t, et, lt⟩ := l0
    obtain ⟨u, eu, lu⟩ := l1
    rw [List.mapM_cons, List.mapM_cons, et, eu] at e
    obtain rfl : [t, u] = ts := Option.some.inj e
    match k with
    | 0 => exact (lt.trans h0.symm).le
    | 1 => exact (lu.trans h1.symm).le
    | k + 2 => exact Nat.zero_le _
  refine ⟨⟨some 0, [⟨0, 1, 1⟩]⟩, ⟨some 10, [⟨0, 1, 1⟩]⟩, [0, 1, 1], [1, 0, 1], hfin _ (by decide) (by decide),
    hfin _ (by decide) (by decide), by decide +kernel, by decide +kernel, fun s s' hs hs' => ?_⟩
  have hnn : NonNeg [(⟨0, 1, 1⟩ : Dim)] := by simp [NonNeg]
  obtain ⟨m', e1, e2⟩ := C108_phases [([[.fill ⟨some 0, [⟨0, 1, 1⟩]⟩ (7 : Int)]], s),
      ([[.copy id ⟨some 0, [⟨0, 1, 1⟩]⟩ ⟨some 10, [⟨0, 1, 1⟩]⟩]], s')] (by
      intro x hx p hp c hc
      rcases List.mem_cons.1 hx with rfl | hx
      · obtain rfl := List.mem_singleton.1 hp
        obtain rfl := List.mem_singleton.1 hc
        exact ⟨hnn, by simp⟩
      · obtain rfl := List.mem_singleton.1 hx
        obtain rfl := List.mem_singleton.1 hp
        obtain rfl := List.mem_singleton.1 hc
        exact ⟨hnn, by simp, by simp, rfl, fun i hi => hi⟩) (by
      intro x hx
      simp only [List.mem_cons, List.not_mem_nil, or_false] at hx
      rcases hx with rfl | rfl <;> exact List.pairwise_singleton _ _) (by
      intro x hx
      simp only [List.mem_cons, List.not_mem_nil, or_false] at hx
      rcases hx with rfl | rfl
      · exact hs
      · exact hs') (fun _ => 0) fun _ => 0
  rw [e1, ← e2]
  change (runCalls [.fill ⟨some 0, [⟨0, 1, 1⟩]⟩ (7 : Int), .copy id ⟨some 0, [⟨0, 1, 1⟩]⟩ ⟨some 10, [⟨0, 1, 1⟩]⟩] fun _ => 0).map (· 10) = some 7
  decide +kernel

/-- Two threads fill the three tiles of a vector of 5 elements, the first one two of them, and the interleaving is arbitrary. -/
example : (let t (x e : Int) : AlgoCall Int := .fill (ArrayRef.crop ⟨some 0, [⟨0, 5, 1⟩]⟩ [.ivl ⟨x, e⟩]) 3
    let run (s : List Nat) := (parallel [[t 4 1, t 0 2], [t 2 2]] s (fun _ => 0) fun _ => 0).map fun m => [0, 1, 2, 3, 4, 5].map m
    run [0, 1, 0, 1, 0] = some [3, 3, 3, 3, 3, 0] ∧ run [1, 0, 0, 0, 1] = some [3, 3, 3, 3, 3, 0] ∧
    (runCalls [t 0 2, t 2 2, t 4 1] fun _ => 0).map (fun m => [0, 1, 2, 3, 4, 5].map m) = some [3, 3, 3, 3, 3, 0]) := by
  decide +kernel

/-- A thread fills a tile and then increments it, while another one does so with the other tile. -/
example : (let v (b : Int) : ArrayRef := ⟨some b, [⟨0, 2, 1⟩]⟩
    let p (b : Int) : List (AlgoCall Int) := [.fill (v b) 5, .update (v b) (· + b)]
    (parallel [p 0, p 2] [0, 1, 1, 0, 1, 0, 0, 0, 1, 1, 0, 1] (fun _ => 0) fun _ => 0).map (fun m => [0, 1, 2, 3].map m) =
      some [5, 5, 7, 7]) := by
  decide +kernel

/-- The innermost tiles of a 10 by 7 array (tiles of 4 by 3, these in tiles of 2 by 2) divided between two threads at an arbitrary place. -/
example (n : Nat) (m : Mem Int) : ∃ l, tileLevels [[.dyn 4, .dyn 3], [.dyn 2, .dyn 2]] ⟨some 0, [⟨0, 10, 1⟩, ⟨0, 7, 10⟩]⟩ = some l ∧
    ∃ ts, [(l.map fun t => AlgoCall.fill t (5 : Int)).take n, (l.map fun t => AlgoCall.fill t 5).drop n].mapM programThread = some ts ∧
      ∀ sched, Finishes (threads ts) sched → ∀ r,
        parallel [(l.map fun t => AlgoCall.fill t 5).take n, (l.map fun t => AlgoCall.fill t 5).drop n] sched r m =
          some (fill ⟨some 0, [⟨0, 10, 1⟩, ⟨0, 7, 10⟩]⟩ 5 m) := by
  have hlev : ∀ (k : Nat) d, [(⟨0, 10, 1⟩ : Dim), ⟨0, 7, 10⟩][k]? = some d →
      LevelsFit ([[Cut.dyn 4, .dyn 3], [.dyn 2, .dyn 2]].filterMap (·[k]?)) d.extent ∧
      LevelsApart ([[Cut.dyn 4, .dyn 3], [.dyn 2, .dyn 2]].filterMap (·[k]?)) d.extent := by
    intro k d hd
    match k, hd with
    | 0, hd => cases hd; exact C102_runtime [.dyn 4, .dyn 2] (by simp) 10
    | 1, hd => cases hd; exact C102_runtime [.dyn 3, .dyn 2] (by simp) 7
    | k + 2, hd => simp at hd
  obtain ⟨l, e, h⟩ := C108_fill (α := Int) (levels := [[.dyn 4, .dyn 3], [.dyn 2, .dyn 2]])
    (a := ⟨some 0, [⟨0, 10, 1⟩, ⟨0, 7, 10⟩]⟩) rfl (by simp [NonNeg]) (by
      intro i j hi hj h
      obtain ⟨x, i', rfl, hx, hi'⟩ := inBox_cons_iff.1 hi
      obtain ⟨y, i'', rfl, hy, hi''⟩ := inBox_cons_iff.1 hi'
      obtain ⟨x', j', rfl, hx', hj'⟩ := inBox_cons_iff.1 hj
      obtain ⟨y', j'', rfl, hy', hj''⟩ := inBox_cons_iff.1 hj'
      rw [inBox_nil] at hi'' hj''
      subst hi'' hj''
      simp only [offsetOf] at h
      dsimp only at hx hy hx' hy' h
      have : x = x' ∧ y = y' := by constructor <;> omega
      rw [this.1, this.2])
    ⟨by simp, fun k d hd => (hlev k d hd).1⟩ ⟨by simp, fun k d hd => (hlev k d hd).2⟩ 5
  obtain ⟨ts, e1, -, h2⟩ := h [(l.map fun t => AlgoCall.fill t (5 : Int)).take n, (l.map fun t => AlgoCall.fill t 5).drop n] (by simp)
  exact ⟨l, e, ts, e1, fun sched hf r => h2 sched hf r m⟩

end Nda
