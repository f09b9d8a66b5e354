import Verif.Lemmas.Threads
/-
C88: calls of the algorithms made by several threads at the same time.
-/
namespace Nda

open Spec

variable {ι α : Type}

/-- C88: if no two threads make conflicting accesses, it does not matter how their accesses are interleaved: when
all threads have finished, the memory is as if they had run one after the other, in any order, and each thread has
read what it would have read alone. -/
theorem C88_schedule [DecidableEq ι] (ts : ι → Thread α) (hr : NoRace ts) (sched : List ι) (hf : Finishes ts sched)
    (r : Int → α) (m : Mem α) :
    (∀ k, (interleave ts sched r m).rest k = [] ∧
      (interleave ts sched r m).regs k = (Thread.run (ts k) r m).1) ∧
    ∀ order : List ι, order.Nodup → (∀ k, ts k ≠ [] → k ∈ order) →
      (interleave ts sched r m).mem = order.foldl (fun m k => (Thread.run (ts k) r m).2) m :=
  ⟨fun k => ⟨(interleave_finish hr hf r m k).1, (interleave_finish hr hf r m k).2.1⟩,
    fun order hn ho => interleave_mem hr hf r m order hn ho⟩

theorem ne_none_iff {o : Option Int} : o ≠ none ↔ ∃ b, o = some b := by
  cases o <;> simp

theorem inBox_of_same_bounds : ∀ (s t : List Dim), s.map Dim.min = t.map Dim.min →
    s.map Dim.extent = t.map Dim.extent → ∀ i, InBox s i → InBox t i := by
  intro s
  induction s with
  | nil => intro t h1 _ i hi; cases t with
    | nil => exact hi
    | cons _ _ => simp at h1
  | cons d s ih =>
    intro t h1 h2 i hi
    cases t with
    | nil => simp at h1
    | cons e t =>
      simp only [List.map_cons, List.cons.injEq] at h1 h2
      obtain ⟨x, i', rfl, hx, hi'⟩ := inBox_cons_iff.1 hi
      exact ⟨by omega, ih t h1.2 h2.2 i' hi'⟩

theorem mem_forEachValue {a : ArrayRef} {b : Int} (hb : a.base = some b) (h : NonNeg a.shape) (x : Int) :
    x ∈ a.forEachValue ↔ ∃ i, InBox a.shape i ∧ x = b + offsetOf a.shape i := by
  unfold ArrayRef.forEachValue
  rw [hb, (forEachValue_perm a.shape h b).mem_iff, List.mem_map]
  simp only [mem_boxList]
  exact ⟨fun ⟨i, hi, e⟩ => ⟨i, hi, e.symm⟩, fun ⟨i, hi, e⟩ => ⟨i, hi, e.symm⟩⟩

theorem mapM_some_of {β γ : Type} {g : β → Option γ} {l : List β} (h : ∀ x ∈ l, ∃ y, g x = some y) :
    ∃ l', l.mapM g = some l' ∧ ∀ y, y ∈ l' ↔ ∃ x ∈ l, g x = some y := by
  induction l with
  | nil => exact ⟨[], by simp, by simp⟩
  | cons x l ih =>
    obtain ⟨y, hy⟩ := h x (by simp)
    obtain ⟨l', h1, h2⟩ := ih fun x hx => h x (by simp [hx])
    refine ⟨y :: l', by rw [List.mapM_cons, hy, h1]; rfl, fun z => ?_⟩
    rw [List.mem_cons, h2]
    constructor
    · rintro (rfl | ⟨x', hx', e⟩)
      · exact ⟨x, by simp, hy⟩
      · exact ⟨x', by simp [hx'], e⟩
    · rintro ⟨x', hx', e⟩
      rcases List.mem_cons.1 hx' with rfl | hx'
      · rw [hy] at e; exact Or.inl (Option.some.inj e).symm
      · exact Or.inr ⟨x', hx', e⟩

theorem reads_ok {e : EinExpr α} {i : Index} (hr : ∀ o ∈ leaves e, OpInRange o i) (hb : ∀ o ∈ leaves e, OpBacked o) :
    ∃ rs, e.reads i = some rs ∧ ∀ a ∈ rs, ∃ o ∈ leaves e, OpElement o a := by
  induction e with
  | op o =>
    have hr' := hr o (by simp [leaves])
    have hb' := hb o (by simp [leaves])
    obtain ⟨op, is⟩ := o
    cases op with
    | fn f => exact ⟨[], rfl, by simp⟩
    | arr base dims =>
      cases base with
      | none => exact absurd hr' (hb' rfl _)
      | some b =>
        refine ⟨_, rfl, fun a ha => ⟨⟨.arr (some b) dims, is⟩, by simp [leaves], ?_⟩⟩
        rw [List.mem_singleton] at ha
        subst ha
        exact ⟨b, _, rfl, hr', by rw [flatOffset_eq]; rfl⟩
  | unary f e ih => exact ih hr hb
  | binary f a b iha ihb =>
    obtain ⟨x, hx, hx'⟩ := iha (fun o ho => hr o (by simp [leaves, ho])) (fun o ho => hb o (by simp [leaves, ho]))
    obtain ⟨y, hy, hy'⟩ := ihb (fun o ho => hr o (by simp [leaves, ho])) (fun o ho => hb o (by simp [leaves, ho]))
    refine ⟨x ++ y, by unfold EinExpr.reads; rw [hx, hy]; rfl, fun c hc => ?_⟩
    rcases List.mem_append.1 hc with h | h
    · obtain ⟨o, ho, h⟩ := hx' c h
      exact ⟨o, by simp [leaves, ho], h⟩
    · obtain ⟨o, ho, h⟩ := hy' c h
      exact ⟨o, by simp [leaves, ho], h⟩

/-- C88: a call, executed access by access, does what the algorithm does; it changes no element but those of the
view it is to change, and reads no element but those of the views it was given. -/
theorem C88_call (c : AlgoCall α) (hc : Valid c) :
    ∃ t, c.thread = some t ∧ (∀ r m, c.exec m = some (Thread.run t r m).2) ∧
      ∀ x ∈ t, (x.isWrite = true → Changes c x.address) ∧ (x.isWrite = false → LooksAt c x.address) := by
  cases c with
  | fill dst v =>
    obtain ⟨hn, hb⟩ := hc
    obtain ⟨b, hb⟩ := ne_none_iff.1 hb
    refine ⟨_, rfl, fun r m => by rw [fillThread_run]; rfl, fun x hx => ?_⟩
    obtain ⟨a, ha, rfl⟩ := List.mem_map.1 hx
    obtain ⟨i, hi, e⟩ := (mem_forEachValue hb hn a).1 ha
    exact ⟨fun _ => ⟨b, i, hb, hi, e⟩, fun h => by simp [Access.isWrite] at h⟩
  | update a g =>
    obtain ⟨hn, hb⟩ := hc
    obtain ⟨b, hb⟩ := ne_none_iff.1 hb
    refine ⟨_, rfl, fun r m => by rw [updateThread_run]; rfl, fun x hx => ?_⟩
    obtain ⟨y, hy, hx⟩ := List.mem_flatMap.1 hx
    obtain ⟨i, hi, e⟩ := (mem_forEachValue hb hn y).1 hy
    simp only [List.mem_cons, List.not_mem_nil, or_false] at hx
    rcases hx with rfl | rfl
    · exact ⟨fun h => by simp [Access.isWrite] at h, fun _ => ⟨b, i, hb, hi, e⟩⟩
    · exact ⟨fun _ => ⟨b, i, hb, hi, e⟩, fun h => by simp [Access.isWrite] at h⟩
  | copy conv src dst =>
    obtain ⟨hn, hsb, hdb, hl, hin⟩ := hc
    obtain ⟨sb, hsb⟩ := ne_none_iff.1 hsb
    obtain ⟨db, hdb⟩ := ne_none_iff.1 hdb
    refine ⟨_, rfl, fun r m => by rw [copyThread_run]; rfl, fun x hx => ?_⟩
    obtain ⟨y, hy, hx⟩ := List.mem_flatMap.1 hx
    obtain ⟨i, hi, rfl⟩ := (mem_copyTrace hsb hdb hl hn y).1 hy
    simp only [List.mem_cons, List.not_mem_nil, or_false] at hx
    rcases hx with rfl | rfl
    · exact ⟨fun h => by simp [Access.isWrite] at h, fun _ => ⟨sb, i, hsb, hin i hi, rfl⟩⟩
    · exact ⟨fun _ => ⟨db, i, hdb, hi, rfl⟩, fun h => by simp [Access.isWrite] at h⟩
  | move conv moved src dst =>
    obtain ⟨hn, hsb, hdb, hl, hin⟩ := hc
    obtain ⟨sb, hsb⟩ := ne_none_iff.1 hsb
    obtain ⟨db, hdb⟩ := ne_none_iff.1 hdb
    refine ⟨_, rfl, fun r m => by rw [moveThread_run]; rfl, fun x hx => ?_⟩
    obtain ⟨y, hy, hx⟩ := List.mem_flatMap.1 hx
    obtain ⟨i, hi, rfl⟩ := (mem_copyTrace hsb hdb hl hn y).1 hy
    simp only [List.mem_cons, List.not_mem_nil, or_false] at hx
    rcases hx with rfl | rfl | rfl
    · exact ⟨fun h => by simp [Access.isWrite] at h, fun _ => ⟨sb, i, hsb, hin i hi, rfl⟩⟩
    · exact ⟨fun _ => Or.inl ⟨sb, i, hsb, hin i hi, rfl⟩, fun h => by simp [Access.isWrite] at h⟩
    · exact ⟨fun _ => Or.inr ⟨db, i, hdb, hi, rfl⟩, fun h => by simp [Access.isWrite] at h⟩
  | transformIndex dst fn =>
    obtain ⟨hn, hb⟩ := hc
    obtain ⟨b, hb⟩ := ne_none_iff.1 hb
    have hat : ∀ i, dst.at_ i = some (b + offsetOf dst.shape i) := fun i => by
      unfold ArrayRef.at_; rw [hb, flatOffset_eq]; rfl
    obtain ⟨t, h1, h2⟩ := mapM_some_of
      (g := fun i => (do let a ← dst.at_ i; pure (.write a fun _ => fn i) : Option (Access α)))
      (l := boxList dst.shape) (fun i _ => ⟨_, by rw [hat i]; rfl⟩)
    have ht : transformIndexThread dst fn = some t := by
      unfold transformIndexThread
      rw [forEachIndex_eq hn]
      exact h1
    refine ⟨t, ht, fun r m => transformIndexThread_run ht r m, fun x hx => ?_⟩
    obtain ⟨i, hi, e⟩ := (h2 x).1 hx
    rw [hat i] at e
    obtain rfl := Option.some.inj e
    exact ⟨fun _ => ⟨b, i, hb, mem_boxList.1 hi, rfl⟩, fun h => by simp [Access.isWrite] at h⟩
  | equal a b =>
    obtain ⟨hna, hnb, ha, hb, hl⟩ := hc
    obtain ⟨ab, ha⟩ := ne_none_iff.1 ha
    obtain ⟨bb, hb⟩ := ne_none_iff.1 hb
    refine ⟨_, rfl, fun r m => by rw [equalThread_run]; rfl, fun x hx => ?_⟩
    unfold equalThread at hx
    split at hx
    · simp at hx
    · next hs =>
      push Not at hs
      obtain ⟨y, hy, hx⟩ := List.mem_flatMap.1 hx
      rw [ha, hb] at hy
      obtain ⟨i, hi, rfl⟩ := (mem_copyForEachValue hl hnb ab bb y).1 hy
      have hi' : InBox a.shape i := inBox_of_same_bounds _ _ hs.1.symm hs.2.symm i hi
      simp only [List.mem_cons, List.not_mem_nil, or_false] at hx
      rcases hx with rfl | rfl
      · exact ⟨fun h => by simp [Access.isWrite] at h, fun _ => Or.inl ⟨ab, i, ha, hi', rfl⟩⟩
      · exact ⟨fun h => by simp [Access.isWrite] at h, fun _ => Or.inr ⟨bb, i, hb, hi, rfl⟩⟩
  | ein f lhs rhs =>
    obtain ⟨h, ha, lb, ld, hlo⟩ := hc
    have hloop : (einLoopShape lhs rhs).forEachIndex = some (boxList (einLoopShape lhs rhs)) :=
      forEachIndex_eq (einLoopShape_nonNeg h.typed h.nonNeg)
    have hstep : ∀ i ∈ boxList (einLoopShape lhs rhs), ∃ t, einStepThread f lhs rhs i = some t ∧
        ∀ x ∈ t, (x.isWrite = true → OpElement lhs x.address) ∧
          (x.isWrite = false → OpElement lhs x.address ∨ ∃ o ∈ leaves rhs, OpElement o x.address) := by
      intro i hi
      have hr : ∀ o ∈ lhs :: leaves rhs, OpInRange o i := fun o ho =>
        opInRange_of_loop h.typed h.consistent ha (mem_boxList.1 hi) ho
      obtain ⟨rs, h1, h2⟩ := reads_ok (e := rhs) (i := i) (fun o ho => hr o (by simp [ho]))
        (fun o ho => h.backed o (by simp [ho]))
      have hadr : ∃ a, lhs.address i = some a ∧ OpElement lhs a := by
        have hr' := hr lhs (by simp)
        obtain ⟨op, is⟩ := lhs
        simp only at hlo
        subst hlo
        exact ⟨_, rfl, lb, _, rfl, hr', by rw [flatOffset_eq]; rfl⟩
      obtain ⟨a, ha1, ha2⟩ := hadr
      refine ⟨_, by unfold einStepThread; rw [h1, ha1]; rfl, fun x hx => ?_⟩
      rcases List.mem_append.1 hx with hx | hx
      · obtain ⟨b, hb, rfl⟩ := List.mem_map.1 hx
        exact ⟨fun h => by simp [Access.isWrite] at h, fun _ => Or.inr (h2 b hb)⟩
      · simp only [List.mem_cons, List.not_mem_nil, or_false] at hx
        rcases hx with rfl | rfl
        · exact ⟨fun h => by simp [Access.isWrite] at h, fun _ => Or.inl ha2⟩
        · exact ⟨fun _ => ha2, fun h => by simp [Access.isWrite] at h⟩
    obtain ⟨ts, h1, h2⟩ := mapM_some_of (g := einStepThread f lhs rhs) (l := boxList (einLoopShape lhs rhs))
      fun i hi => by obtain ⟨t, ht, _⟩ := hstep i hi; exact ⟨t, ht⟩
    have ht : einThread f lhs rhs = some ts.flatten := by
      unfold einThread
      rw [hloop]
      simp only [Option.bind_eq_bind, Option.bind_some]
      rw [h1]; rfl
    refine ⟨_, ht, fun r m => einThread_run ht r m, fun x hx => ?_⟩
    obtain ⟨t, htm, hx⟩ := List.mem_flatten.1 hx
    obtain ⟨i, hi, e⟩ := (h2 t).1 htm
    obtain ⟨t', e', h'⟩ := hstep i hi
    obtain rfl := Option.some.inj (e.symm.trans e')
    exact h' x hx

/-- C88: valid calls none of which changes what another one changes or looks at may be made by different threads at
the same time: there is no data race, and whatever the interleaving, the result is that of the calls one after the
other. -/
theorem C88_calls (cs : List (AlgoCall α)) (hv : ∀ c ∈ cs, Valid c) (hi : cs.Pairwise Independent) :
    ∃ ts, cs.mapM AlgoCall.thread = some ts ∧ NoRace (threads ts) ∧
      ∀ sched, Finishes (threads ts) sched → ∀ r m,
        cs.foldlM (fun m c => c.exec m) m = some (interleave (threads ts) sched r m).mem ∧
        ∀ k, (interleave (threads ts) sched r m).regs k = (Thread.run (threads ts k) r m).1 := by
  have key : ∃ ts, cs.mapM AlgoCall.thread = some ts ∧
      (∀ r m, cs.foldlM (fun m c => c.exec m) m = some (ts.foldl (fun m t => (Thread.run t r m).2) m)) ∧
      List.Forall₂ (fun c t => ∀ x ∈ t, (x.isWrite = true → Changes c x.address) ∧
        (x.isWrite = false → LooksAt c x.address)) cs ts := by
    clear hi
    induction cs with
    | nil => exact ⟨[], by simp, fun r m => rfl, .nil⟩
    | cons c cs ih =>
      obtain ⟨t, h1, h2, h3⟩ := C88_call c (hv c (by simp))
      obtain ⟨ts, g1, g2, g3⟩ := ih fun c hc => hv c (by simp [hc])
      refine ⟨t :: ts, by rw [List.mapM_cons, h1, g1]; rfl, fun r m => ?_, .cons h3 g3⟩
      rw [List.foldlM_cons, h2 r m]
      exact g2 r _
  obtain ⟨ts, h1, h2, h3⟩ := key
  have hrace : NoRace (threads ts) := by
    refine noRace_list ?_
    clear h1 h2
    induction h3 with
    | nil => exact .nil
    | @cons c t cs ts hc hcs ih =>
      rw [List.pairwise_cons] at hi ⊢
      refine ⟨fun u hu a => ?_, ih (fun c hc => hv c (by simp [hc])) hi.2⟩
      obtain ⟨d, hd, hdu⟩ : ∃ d ∈ cs, ∀ x ∈ u, (x.isWrite = true → Changes d x.address) ∧
          (x.isWrite = false → LooksAt d x.address) := by
        clear ih hi
        induction hcs with
        | nil => simp at hu
        | cons h' _ ih' =>
          rcases List.mem_cons.1 hu with rfl | hu
          · exact ⟨_, by simp, h'⟩
          · obtain ⟨d, hd, h⟩ := ih' (fun c hc => hv c (by
              rcases List.mem_cons.1 hc with rfl | hc
              · simp
              · simp [hc])) hu
            exact ⟨d, by simp [hd], h⟩
      have hind := hi.1 d hd
      constructor
      · rintro ⟨x, hx, rfl, hw⟩ ⟨y, hy, e⟩
        obtain ⟨n1, n2⟩ := (hind x.address).1 ((hc x hx).1 hw)
        cases hyw : y.isWrite with
        | true => exact n1 (e ▸ (hdu y hy).1 hyw)
        | false => exact n2 (e ▸ (hdu y hy).2 hyw)
      · rintro ⟨x, hx, rfl, hw⟩ ⟨y, hy, e⟩
        have hcd := (hdu x hx).1 hw
        cases hyw : y.isWrite with
        | true => exact ((hind x.address).1 (e ▸ (hc y hy).1 hyw)).1 hcd
        | false => exact (hind x.address).2 hcd (e ▸ (hc y hy).2 hyw)
  refine ⟨ts, h1, hrace, fun sched hf r m => ⟨?_, fun k => (interleave_finish hrace hf r m k).2.1⟩⟩
  rw [interleave_list hrace hf]
  exact h2 r m

/-- C88: `equal` computed by a thread from what it has read, while others are running, is `equal` of the arrays. -/
theorem C88_equal (ne : α → α → Bool) (a b : ArrayRef) (r : Int → α) (m : Mem α) :
    equal ne (Thread.run (equalThread a b) r m).1 a b = equal ne m a b := by
  unfold equal equalThread
  split
  · rfl
  · have h := fun c => equalThread_regs (copyForEachValue a.shape a.base b.shape b.base) r m c
    rw [Bool.eq_iff_iff, foldl_all (fun p : Int × Int => ne _ _),
      foldl_all (fun p : Int × Int => ne (m p.1) (m p.2))]
    refine and_congr_right fun _ => forall₂_congr fun p hp => ?_
    rw [h p.1, h p.2, if_pos (Or.inl (List.mem_map_of_mem hp)), if_pos (Or.inr (List.mem_map_of_mem hp))]

/-- C88: calls that change nothing may be made at any time. -/
theorem C88_readers (c d : AlgoCall α) (hc : ∀ x, ¬ Changes c x) (hd : ∀ x, ¬ Changes d x) : Independent c d :=
  fun x => ⟨fun h => absurd h (hc x), fun h => absurd h (hd x)⟩

section
variable {cs : List Cut} {a : ArrayRef} {ts ts' : List (List Arg)}

/-- Different tiles have no element in common. -/
theorem tiles_apart {b : Int} (hb : a.base = some b) (hc : List.Forall₂ CutOk cs a.shape) (hs : NonNeg a.shape)
    (hi : Injective a.shape) (hno : List.Forall₂ NoOverlap cs a.shape) (e : tileLoops cs a.shape = some ts)  :
    (∀ t ∈ ts, NonNeg (a.crop t).shape ∧ (a.crop t).base ≠ none ∧
      ∀ x, ElementAt (a.crop t) x → ElementAt a x) ∧
    ts.Pairwise fun t u => ∀ x, ElementAt (a.crop t) x → ¬ ElementAt (a.crop u) x := by
  obtain ⟨ht, hd⟩ := tiled_perm hc hs e (List.Perm.refl _)
  have key : ∀ t ∈ ts, ∀ x, ElementAt (a.crop t) x →
      ∃ i, InBox a.shape i ∧ TileHas t i ∧ x = b + offsetOf a.shape i := by
    rintro t h x ⟨b', i, hb', hi', rfl⟩
    obtain ⟨b'', hb'', ea⟩ := tiled_address hb (ht.piece t h)
    obtain rfl := Option.some.inj (hb'.symm.trans hb'')
    obtain ⟨i1, i2⟩ := (tiled_inBox_iff (ht.piece t h) i).1 hi'
    exact ⟨i, i1, i2, ea i (inBox_length i1)⟩
  refine ⟨fun t h => ⟨tiled_nonNeg (ht.piece t h) hs, ?_, fun x hx => ?_⟩, ?_⟩
  · obtain ⟨b', hb', -⟩ := tiled_address hb (ht.piece t h)
    rw [hb']; simp
  · obtain ⟨i, i1, -, e⟩ := key t h x hx
    exact ⟨b, i, hb, i1, e⟩
  · refine List.Pairwise.imp_of_mem ?_ (hd hno)
    intro t u h1 h2 hdis x hx hy
    obtain ⟨i, i1, i2, rfl⟩ := key t h1 x hx
    obtain ⟨j, j1, j2, e⟩ := key u h2 _ hy
    obtain rfl := hi i j i1 j1 (by omega)
    exact hdis i ⟨i2, j2⟩

/-- C88: each tile of an array may be filled, updated, or computed from its indices by its own thread. -/
theorem C88_tiles {b : Int} (hb : a.base = some b) (hc : List.Forall₂ CutOk cs a.shape) (hs : NonNeg a.shape)
    (hi : Injective a.shape) (hno : List.Forall₂ NoOverlap cs a.shape) (e : tileLoops cs a.shape = some ts) :
    (∀ v : α, (∀ c ∈ ts.map fun t => AlgoCall.fill (a.crop t) v, Valid c) ∧
      (ts.map fun t => AlgoCall.fill (a.crop t) v).Pairwise Independent ∧
      ∀ m, (ts.map fun t => AlgoCall.fill (a.crop t) v).foldlM (fun m c => c.exec m) m = some (fill a v m)) ∧
    (∀ g : α → α, (∀ c ∈ ts.map fun t => AlgoCall.update (a.crop t) g, Valid c) ∧
      (ts.map fun t => AlgoCall.update (a.crop t) g).Pairwise Independent ∧
      ∀ m, (ts.map fun t => AlgoCall.update (a.crop t) g).foldlM (fun m c => c.exec m) m = some (updateValues a g m)) ∧
    (∀ fn : Index → α, (∀ c ∈ ts.map fun t => AlgoCall.transformIndex (a.crop t) fn, Valid c) ∧
      (ts.map fun t => AlgoCall.transformIndex (a.crop t) fn).Pairwise Independent ∧
      ∀ m, (ts.map fun t => AlgoCall.transformIndex (a.crop t) fn).foldlM (fun m c => c.exec m) m =
        transformIndex a fn m) := by
  obtain ⟨h1, h2⟩ := tiles_apart hb hc hs hi hno e
  refine ⟨fun v => ⟨?_, ?_, fun m => ?_⟩, fun g => ⟨?_, ?_, fun m => ?_⟩, fun fn => ⟨?_, ?_, fun m => ?_⟩⟩
  · intro c hc'
    obtain ⟨t, ht, rfl⟩ := List.mem_map.1 hc'
    exact ⟨(h1 t ht).1, (h1 t ht).2.1⟩
  · rw [List.pairwise_map]
    exact h2.imp fun h x => ⟨fun hx => ⟨h x hx, fun hh => hh⟩, fun _ hh => hh⟩
  · rw [List.foldlM_map]
    exact (foldlM_some_op (fun t m => fill (a.crop t) v m) ts m).trans
      (congrArg some (C77_fill hb hc hs e (List.Perm.refl _) v m))
  · intro c hc'
    obtain ⟨t, ht, rfl⟩ := List.mem_map.1 hc'
    exact ⟨(h1 t ht).1, (h1 t ht).2.1⟩
  · rw [List.pairwise_map]
    exact h2.imp fun h x => ⟨fun hx => ⟨h x hx, h x hx⟩, fun hx hy => h x hy hx⟩
  · rw [List.foldlM_map]
    exact (foldlM_some_op (fun t m => updateValues (a.crop t) g m) ts m).trans
      (congrArg some (C77_update hb hc hs g (.inl hno) e (List.Perm.refl _) m))
  · intro c hc'
    obtain ⟨t, ht, rfl⟩ := List.mem_map.1 hc'
    exact ⟨(h1 t ht).1, (h1 t ht).2.1⟩
  · rw [List.pairwise_map]
    exact h2.imp fun h x => ⟨fun hx => ⟨h x hx, fun hh => hh⟩, fun _ hh => hh⟩
  · rw [List.foldlM_map]
    obtain ⟨m', e1, e2⟩ := C77_transform_index hb hc hs hi e (List.Perm.refl _) fn m
    rw [e2]
    exact e1

/-- C88: copying into an array, one thread for each tile of it. -/
theorem C88_copy_tiles {src : ArrayRef} {b sb : Int} (hb : a.base = some b) (hsb : src.base = some sb)
    (hc : List.Forall₂ CutOk cs a.shape) (hs : NonNeg a.shape) (hi : Injective a.shape)
    (hno : List.Forall₂ NoOverlap cs a.shape)
    (hl : List.length src.shape = a.shape.length) (hin : ∀ i, InBox a.shape i → InBox src.shape i)
    (hdis : DisjointElems src.shape sb a.shape b) (e : tileLoops cs a.shape = some ts) (conv : α → α) :
    (∀ c ∈ ts.map fun t => AlgoCall.copy conv src (a.crop t), Valid c) ∧
    (ts.map fun t => AlgoCall.copy conv src (a.crop t)).Pairwise Independent ∧
    ∀ m, (ts.map fun t => AlgoCall.copy conv src (a.crop t)).foldlM (fun m c => c.exec m) m =
      some (copy conv src a m) := by
  obtain ⟨h1, h2⟩ := tiles_apart hb hc hs hi hno e
  obtain ⟨ht, -⟩ := tiled_perm hc hs e (List.Perm.refl _)
  have hsep : ∀ x, ElementAt a x → ¬ ElementAt src x := by
    rintro x ⟨b', i, hb', hi', rfl⟩ ⟨sb', j, hsb', hj, e'⟩
    obtain rfl := Option.some.inj (hb'.symm.trans hb)
    obtain rfl := Option.some.inj (hsb'.symm.trans hsb)
    exact hdis j i hj hi' e'.symm
  refine ⟨fun c hc' => ?_, ?_, fun m => ?_⟩
  · obtain ⟨t, htm, rfl⟩ := List.mem_map.1 hc'
    refine ⟨(h1 t htm).1, by rw [hsb]; simp, (h1 t htm).2.1, ?_, fun i hi' => ?_⟩
    · rw [hl]
      obtain ⟨g1, g2, -⟩ := tiled_fullIndex (ht.piece t htm)
      exact (g2.symm.trans (crop_length g1).symm)
    · exact hin i ((tiled_inBox_iff (ht.piece t htm) i).1 hi').1
  · rw [List.pairwise_map]
    refine List.Pairwise.imp_of_mem ?_ h2
    intro t u htm hum h x
    exact ⟨fun hx => ⟨h x hx, hsep x ((h1 t htm).2.2 x hx)⟩, fun hx => hsep x ((h1 u hum).2.2 x hx)⟩
  · rw [List.foldlM_map]
    exact (foldlM_some_op (fun t m => copy conv src (a.crop t) m) ts m).trans
      (congrArg some (C77_copy hb hsb hc hs hi hl hin hdis e (List.Perm.refl _) conv m))

end

/-- C88: a reduction may be divided among threads along a loop index that the left-hand side has: each thread has
all operands cropped to its own interval of that index. -/
theorem C88_ein_pieces (f : α → α → α) (lhs : EinOp α) (rhs : EinExpr α) (h : EinInput lhs rhs)
    (ha : einAssert lhs rhs = true) (lb : Int) (ld : List SDim) (hl : lhs.op = .arr (some lb) ld) (k : Nat)
    (hu : k ∈ lhs.is) (vs : List Interval) (hv : ∀ v ∈ vs, 0 ≤ v.extent)
    (hr : ∀ v ∈ vs, ∀ o ∈ lhs :: leaves rhs, TileInRange k v o)
    (hdisj : vs.Pairwise fun v w => ∀ x, InIvl v x → ¬ InIvl w x) :
    (∀ c ∈ vs.map fun v => AlgoCall.ein f (tileOp k v lhs) (tileExpr k v rhs), Valid c) ∧
    (vs.map fun v => AlgoCall.ein f (tileOp k v lhs) (tileExpr k v rhs)).Pairwise Independent ∧
    ∀ m, (∀ x y z, f (f x y) z = f (f x z) y) →
      (∀ i, LoopIndex (lhs :: leaves rhs) i → ∃ v ∈ vs, InIvl v (i.getD k 0)) →
      (vs.map fun v => AlgoCall.ein f (tileOp k v lhs) (tileExpr k v rhs)).foldlM (fun m c => c.exec m) m =
        einReduce f lhs rhs m := by
  have ok : ∀ v ∈ vs, ∀ o ∈ lhs :: leaves rhs, TileOk k v o := fun v hv' o ho => ⟨h.typed o ho, hr v hv' o ho⟩
  have hli : lhs.is.length = ld.length := by
    have := h.typed lhs (by simp)
    obtain ⟨op, is⟩ := lhs
    simp only at hl
    subst hl
    exact this.1
  have hu' : ∃ o ∈ lhs :: leaves rhs, OpUses o k := ⟨lhs, by simp, by unfold OpUses; rw [hl]; exact hu⟩
  obtain ⟨p, hp, hpk⟩ := List.mem_iff_getElem.1 hu
  have hpk' : lhs.is[p]? = some k := by rw [List.getElem?_eq_getElem hp, hpk]
  -- elements of the left-hand side of a piece
  have hel : ∀ v ∈ vs, ∀ x, OpElement (tileOp k v lhs) x → ∃ j y, InBox (ld.map SDim.val) j ∧ j[p]? = some y ∧
      InIvl v y ∧ x = lb + offsetOf (ld.map SDim.val) j := by
    intro v hv' x hx
    have hok := ok v hv' lhs (by simp)
    obtain ⟨op, is⟩ := lhs
    simp only at hl
    subst hl
    obtain ⟨b, j, hb, hj, rfl⟩ := hx
    have hj' := (tile_inBox hok.typed.1 (fun p d => hok.inRange p d) j).1 hj
    have hjl : j.length = ld.length := by simpa using inBox_length hj'.1
    have hadr := tile_address (k := k) (v := v) (base := some lb) hli j hjl
    rw [hb] at hadr
    simp only [Option.map_some, Option.some.injEq] at hadr
    have hpj : p < j.length := by rw [hjl, ← hli]; exact hp
    exact ⟨j, j[p], hj'.1, List.getElem?_eq_getElem hpj, hj'.2 p _ hpk' (List.getElem?_eq_getElem hpj), hadr⟩
  have hinj : Injective (ld.map SDim.val) := by
    have := h.injective
    rw [hl] at this
    exact this
  refine ⟨fun c hc => ?_, ?_, fun m hf hcov => ?_⟩
  · obtain ⟨v, hv', rfl⟩ := List.mem_map.1 hc
    refine ⟨einInput_tile (hv v hv') h (hr v hv'), einAssert_tile h (hr v hv') ha, ?_⟩
    obtain ⟨op, is⟩ := lhs
    simp only at hl
    subst hl
    exact ⟨_, _, rfl⟩
  · rw [List.pairwise_map]
    refine List.Pairwise.imp_of_mem ?_ hdisj
    intro v w hv' hw' hd x
    have hleaf : ∀ u ∈ vs, ∀ u' ∈ vs, OpElement (tileOp k u lhs) x →
        ¬ ∃ o ∈ leaves (tileExpr k u' rhs), OpElement o x := by
      rintro u hu1 u' hu2 h1 ⟨o, ho, h2⟩
      rw [leaves_tile] at ho
      obtain ⟨o', ho', rfl⟩ := List.mem_map.1 ho
      exact h.separate o' ho' x (tile_element (ok u hu1 lhs (by simp)) h1)
        (tile_element (ok u' hu2 o' (by simp [ho'])) h2)
    have hap : OpElement (tileOp k v lhs) x → ¬ OpElement (tileOp k w lhs) x := by
      intro h1 h2
      obtain ⟨j, y, j1, j2, j3, j4⟩ := hel v hv' x h1
      obtain ⟨i, z, i1, i2, i3, i4⟩ := hel w hw' x h2
      obtain rfl := hinj i j i1 j1 (by omega)
      rw [j2] at i2
      obtain rfl := Option.some.inj i2
      exact hd _ j3 i3
    refine ⟨fun hx => ⟨hap hx, ?_⟩, fun hx => ?_⟩
    · rintro (h' | h')
      · exact hap hx h'
      · exact hleaf v hv' w hw' hx h'
    · rintro (h' | h')
      · exact hap h' hx
      · exact hleaf w hw' v hv' hx h'
  · have : RightCommutative f := ⟨hf⟩
    obtain ⟨m', e1, e2⟩ := C66_tiles f lhs rhs m h ha lb ld hl k hu' vs hv hr hdisj hcov
    rw [List.foldlM_map, e1]
    exact e2

/-- C88: dividing a reduction along a loop index that the left-hand side does not have is a data race: here
`s += x(i)` is computed by two threads, one for each element of `x`, and the contribution of the first is lost. -/
theorem C88_reduction_counterexample :
    ∃ (lhs : EinOp Int) (rhs : EinExpr Int) (t u : Thread Int) (m : Mem Int) (sched : List Nat),
      EinOp.is lhs = [] ∧
      einThread (· + ·) (tileOp 0 ⟨0, 1⟩ lhs) (tileExpr 0 ⟨0, 1⟩ rhs) = some t ∧
      einThread (· + ·) (tileOp 0 ⟨1, 1⟩ lhs) (tileExpr 0 ⟨1, 1⟩ rhs) = some u ∧
      ¬ NoRace (threads [t, u]) ∧ Finishes (threads [t, u]) sched ∧
      (einReduce (· + ·) lhs rhs m).map (· 10) = some 30 ∧
      (interleave (threads [t, u]) sched (fun _ => 0) m).mem 10 = 20 := by
  have key : ∀ (lhs : EinOp Int) (rhs : EinExpr Int), NonNeg (einLoopShape lhs rhs) →
      einThread (· + ·) lhs rhs =
        ((boxList (einLoopShape lhs rhs)).mapM (einStepThread (· + ·) lhs rhs)).map List.flatten := by
    intro lhs rhs h
    unfold einThread
    rw [forEachIndex_eq h]
    simp only [Option.bind_eq_bind, Option.bind_some]
    cases (boxList (einLoopShape lhs rhs)).mapM (einStepThread (· + ·) lhs rhs) <;> rfl
  let x : SDim := ⟨⟨dynamic, dynamic, dynamic⟩, ⟨0, 2, 1⟩⟩
  refine ⟨einScalar 10, .op ⟨.arr (some 0) [x], [0]⟩, _, _, fun a => if a = 0 then 10 else if a = 1 then 20 else 0,
    [0, 0, 1, 1, 0, 1], rfl,
    (key _ _ (by unfold NonNeg; decide +kernel)).trans rfl, (key _ _ (by unfold NonNeg; decide +kernel)).trans rfl,
    ?_, ?_, ?_, by decide +kernel⟩
  · intro h
    exact h 0 1 (by decide) _ (List.mem_of_getElem? (i := 1) rfl) _ (List.mem_of_getElem? (i := 2) rfl)
      ⟨rfl, .inr rfl⟩
  · intro k
    rcases k with _ | _ | k
    · exact Nat.le_refl 3
    · exact Nat.le_refl 3
    · exact Nat.zero_le _
  · unfold einReduce
    rw [forEachIndex_eq (by unfold NonNeg; decide +kernel)]
    decide +kernel

/-- C88: the intervals of `split<N>` overlap when the extent is not a multiple of `N`; threads that update one tile
each then have a data race. -/
theorem C88_static_split_counterexample :
    ∃ (a : ArrayRef) (l : List Interval) (m : Mem Int) (sched sched' : List Nat),
      (splitStatic 2 ⟨0, 3⟩).iterate = some l ∧
      (let ts := l.map fun v => updateThread (a.crop [.ivl v]) (· + 1)
       ¬ NoRace (threads ts) ∧ Finishes (threads ts) sched ∧ Finishes (threads ts) sched' ∧
       (interleave (threads ts) sched (fun _ => 0) m).mem 1 = 2 ∧
       (interleave (threads ts) sched' (fun _ => 0) m).mem 1 = 1) := by
  have e : (splitStatic 2 ⟨0, 3⟩).iterate = some [⟨0, 2⟩, ⟨1, 2⟩] := statIterate (by decide) (by decide)
  refine ⟨⟨some 0, [⟨0, 3, 1⟩]⟩, [⟨0, 2⟩, ⟨1, 2⟩], fun _ => 0, [0, 0, 0, 0, 1, 1, 1, 1], [0, 0, 0, 1, 0, 1, 1, 1],
    e, ?_, ?_, ?_, by decide +kernel, by decide +kernel⟩
  · intro h
    have e0 : (ArrayRef.crop ⟨some 0, [⟨0, 3, 1⟩]⟩ [.ivl ⟨0, 2⟩]).forEachValue = [0, 1] := by decide +kernel
    have e1 : (ArrayRef.crop ⟨some 0, [⟨0, 3, 1⟩]⟩ [.ivl ⟨1, 2⟩]).forEachValue = [1, 2] := by decide +kernel
    refine h 0 1 (by decide) (.read 1) ?_ (.write 1 fun r => r 1 + 1) ?_ ⟨rfl, .inr rfl⟩
    · simp [threads, updateThread, e0]
    · simp [threads, updateThread, e1]
  · intro k
    rcases k with _ | _ | k
    · decide +kernel
    · decide +kernel
    · exact Nat.zero_le _
  · intro k
    rcases k with _ | _ | k
    · decide +kernel
    · decide +kernel
    · exact Nat.zero_le _

/-- Two threads fill the rows of a 2x2 array at address 0; whatever the schedule, here an alternating one, the
result is that of one `fill` of the whole. -/
example : (let t (y : Int) : Thread Int := fillThread (ArrayRef.crop ⟨some 0, [⟨0, 2, 1⟩, ⟨0, 2, 2⟩]⟩ [.all, .ivl ⟨y, 1⟩]) 7
    let c := interleave (threads [t 0, t 1]) [1, 0, 0, 1] (fun _ => 0) fun _ => 0
    [0, 1, 2, 3, 4].map c.mem = [7, 7, 7, 7, 0] ∧
    [0, 1, 2, 3, 4].map (fill ⟨some 0, [⟨0, 2, 1⟩, ⟨0, 2, 2⟩]⟩ (7 : Int) fun _ => 0) = [7, 7, 7, 7, 0]) := by
  decide +kernel

/-- Copying a vector while another thread increments a different one. -/
example : (let v (b : Int) : ArrayRef := ⟨some b, [⟨0, 2, 1⟩]⟩
    let ts : List (Thread Int) := [copyThread id (v 0) (v 10), updateThread (v 20) (· + 1)]
    let c := interleave (threads ts) [0, 1, 1, 0, 0, 1, 0, 1] (fun _ => 0) fun a => a
    [0, 1, 10, 11, 20, 21].map c.mem = [0, 1, 0, 1, 21, 22] ∧
    (ts.map List.length = [4, 4])) := by
  decide +kernel

/-- A copy out of an array that another thread moves from is a race: what arrives depends on the schedule. -/
example : (let v (b : Int) : ArrayRef := ⟨some b, [⟨0, 1, 1⟩]⟩
    let ts : List (Thread Int) := [copyThread id (v 0) (v 10), moveThread id (fun _ => -1) (v 0) (v 20)]
    let run (s : List Nat) := (interleave (threads ts) s (fun _ => 0) fun _ => 5).mem 10
    run [0, 0, 1, 1, 1] = 5 ∧ run [1, 1, 0, 0, 1] = -1) := by
  decide +kernel

/-- The calls of the first example are valid and independent by `C88_tiles`. -/
example (v : Int) : ∃ ts, tileLoops [.keep, .dyn 1] [⟨0, 2, 1⟩, ⟨0, 2, 2⟩] = some ts ∧
    (ts.map fun t => AlgoCall.fill (ArrayRef.crop ⟨some 0, [⟨0, 2, 1⟩, ⟨0, 2, 2⟩]⟩ t) v).Pairwise Independent := by
  have hc : List.Forall₂ CutOk [.keep, .dyn 1] [(⟨0, 2, 1⟩ : Dim), ⟨0, 2, 2⟩] :=
    .cons trivial (.cons (by decide : (0 : Int) < 1) .nil)
  have hs : NonNeg [(⟨0, 2, 1⟩ : Dim), ⟨0, 2, 2⟩] := by unfold NonNeg; decide
  obtain ⟨ts, e, -⟩ := C77_terminates _ _ hc hs
  refine ⟨ts, e, ((C88_tiles (a := ⟨some 0, [⟨0, 2, 1⟩, ⟨0, 2, 2⟩]⟩) rfl hc hs ?_
    (.cons trivial (.cons trivial .nil)) e).1 v).2.1⟩
  intro i j hi hj h
  obtain ⟨x, i', rfl, hx, hi'⟩ := inBox_cons_iff.1 hi
  obtain ⟨y, i'', rfl, hy, hi''⟩ := inBox_cons_iff.1 hi'
  obtain ⟨x', j', rfl, hx', hj'⟩ := inBox_cons_iff.1 hj
  obtain ⟨y', j'', rfl, hy', hj''⟩ := inBox_cons_iff.1 hj'
  rw [inBox_nil] at hi'' hj''
  subst hi'' hj''
  simp only [offsetOf] at h
  dsimp only at hx hy hx' hy' h
  have : x = x' ∧ y = y' := by constructor <;> omega
  rw [this.1, this.2]

end Nda
