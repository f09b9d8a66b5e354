import Verif.Lemmas.Exceptions
import Verif.Lemmas.ArrayThrow
/-
Statements left by exceptions of constructors of elements.
-/
namespace Nda
open Spec

variable {V : Type} [Hollow V]

/-- `r` is `r0` unless an exception has been thrown; then the state satisfies `Q`, or the destructor of an object
has met an element that is not alive. -/
def Hit (r0 : Except Fault (World V)) (Q : World V → Prop) (r : Except Fault (Left V)) : Prop :=
  match r with
  | .ok (.returned w _) => r0 = .ok w
  | .ok (.thrown w) => Q w
  | .error f => r0 = .error f ∨ f = .dead

omit [Hollow V] in
theorem hit_lift (f : Op V) (Q : World V → Prop) (w : World V) (n : Nat) : Hit (f w) Q (lift f w n) := by
  unfold lift Hit
  cases f w with
  | error e => exact Or.inl rfl
  | ok w => rfl

omit [Hollow V] in
theorem Hit.mono {r0 : Except Fault (World V)} {Q Q' : World V → Prop} {r : Except Fault (Left V)}
    (h : Hit r0 Q r) (hQ : ∀ w, Q w → Q' w) : Hit r0 Q' r := by
  unfold Hit at *
  split
  · exact h
  · exact hQ _ h
  · exact h

omit [Hollow V] in
theorem hit_seq {f g : OpX V} {f0 g0 : Op V} {Q : World V → Prop} {w : World V} {n : Nat}
    (hf : Hit (f0 w) Q (f w n)) (hg : ∀ w1 n1, f0 w = .ok w1 → Hit (g0 w1) Q (g w1 n1)) :
    Hit (f0 w >>= g0) Q ((f ⨟ g) w n) := by
  unfold andThen
  cases h : f w n with
  | error e =>
    rw [h] at hf
    rcases hf with hf | rfl
    · rw [hf]; exact Or.inl rfl
    · exact Or.inr rfl
  | ok l =>
    rw [h] at hf
    cases l with
    | returned w1 n1 =>
      have hf : f0 w = .ok w1 := hf
      rw [hf]
      exact hg w1 n1 hf
    | thrown w1 => exact hf

omit [Hollow V] in
theorem hit_unwinding {f : OpX V} {c : Op V} {r0 : Except Fault (World V)} {Q Q' : World V → Prop} {w : World V}
    {n : Nat} (hf : Hit r0 Q (f w n)) (hc : ∀ w1, Q w1 → c w1 = .error .dead ∨ ∃ w2, c w1 = .ok w2 ∧ Q' w2) :
    Hit r0 Q' (unwinding f c w n) := by
  unfold unwinding
  cases h : f w n with
  | error e => rw [h] at hf; exact hf
  | ok l =>
    rw [h] at hf
    cases l with
    | returned w1 n1 => exact hf
    | thrown w1 =>
      show Hit r0 Q' (c w1 >>= fun w => .ok (.thrown w))
      rcases hc w1 hf with e | ⟨w2, e, h2⟩
      · rw [e]; exact Or.inr rfl
      · rw [e]; exact h2

omit [Hollow V] in
theorem hit_scope {f : OpX V} {c f0 : Op V} {Q Q' : World V → Prop} {w : World V}
    {n : Nat} (hf : Hit (f0 w) Q (f w n)) (hc : ∀ w1, Q w1 → c w1 = .error .dead ∨ ∃ w2, c w1 = .ok w2 ∧ Q' w2) :
    Hit (f0 w >>= c) Q' (scope f c w n) :=
  hit_seq (hit_unwinding hf hc) fun w1 n1 _ => hit_lift c Q' w1 n1

/-- A loop of calls one of which throws. -/
theorem each_calling {A : Type} {p : Plan V} {t : Thrower} (hp : p.who = t) (tr : List A) (fail f : A → Op V)
    (w : World V) (n : Nat) :
    each tr (fun q => calling p t (fail q) (f q)) w n =
      if h : n < tr.length then
        (tr.take n).foldlM (fun w q => f q w) w >>= fun w => fail tr[n] w >>= fun w => .ok (.thrown w)
      else tr.foldlM (fun w q => f q w) w >>= fun w => .ok (.returned w (n - tr.length)) := by
  induction tr generalizing w n with
  | nil => rfl
  | cons q tr ih =>
    show (calling p t (fail q) (f q) ⨟ each tr fun q => calling p t (fail q) (f q)) w n = _
    unfold andThen
    cases n with
    | zero =>
      have : calling p t (fail q) (f q) w 0 = (fail q w >>= fun w => .ok (.thrown w)) := by
        unfold calling; rw [if_pos hp]
      rw [this, dif_pos (by simp)]
      show _ = (Except.ok w >>= fun w => fail q w >>= fun w => Except.ok (Left.thrown w))
      rw [bind_ok]
      cases fail q w <;> rfl
    | succ n =>
      have : calling p t (fail q) (f q) w (n + 1) = (f q w >>= fun w => .ok (.returned w n)) := by
        unfold calling; rw [if_pos hp]; rfl
      rw [this]
      cases hfq : f q w with
      | error e =>
        split
        · rw [List.take_succ_cons, List.foldlM_cons, hfq]; rfl
        · rw [List.foldlM_cons, hfq]; rfl
      | ok w1 =>
        show each tr _ w1 n = _
        rw [ih w1 n]
        by_cases h : n < tr.length
        · rw [dif_pos h, dif_pos (by simpa using h), List.take_succ_cons, List.foldlM_cons, hfq]; rfl
        · rw [dif_neg h, dif_neg (by simpa using h), List.foldlM_cons, hfq]
          simp only [bind_ok, List.length_cons, Nat.add_sub_add_right]

omit [Hollow V] in
theorem allocateX_lift {p : Plan V} (h : p.who ≠ .allocator) (ty : Types V) (x : Nat) :
    allocateX p ty x = lift (allocate ty x) := by
  funext w n
  unfold allocateX
  simp only [calling_lift h]
  cases e : w.get x with
  | error f => unfold lift allocate; rw [e]; rfl
  | ok a =>
    rw [bind_ok]
    cases e1 : assert ty a.buffer.isNone w with
    | error f => unfold lift allocate; rw [e, bind_ok, e1]; rfl
    | ok w1 =>
      have : w1 = w := by
        unfold assert check at e1
        split at e1
        · simpa using e1.symm
        · simp at e1
      subst this
      rw [bind_ok]
      split <;> rfl

/-! ### Damage -/

/-- No two objects have the same memory. -/
def Apart (w : World V) : Prop :=
  ∀ y z a a' c, y ≠ z → w.vars y = some a → w.vars z = some a' → a.buffer = some (c, 0) → a'.buffer ≠ some (c, 0)

omit [Hollow V] in
theorem Inv.apart [Hollow V] {ty : Types V} {w : World V} (hI : Inv ty w) : Apart w :=
  fun y z a a' c hyz h1 h2 h3 h4 => hyz (hI.disj y z a a' c 0 0 h1 h2 h3 h4)

/-- Allocation `b` belongs to no object, or to `x`, in which it has fewer elements than `x` should have. -/
structure Ruin (x b : Nat) (w : World V) : Prop where
  other : ∀ z a, z ≠ x → w.vars z = some a → a.buffer ≠ some (b, 0)
  dead : ∃ blk, w.heap b = some blk ∧ ∀ a, w.vars x = some a → Holds w a b blk ∧ NonNeg a.shape ∧
    aliveIn blk < a.shape.size ∧ ∃ o, blk.live o < cnt a.shape o

/-- The state after an exception: elements of `x` have not been constructed. -/
structure Hurt (T : Nat → Prop) (x b : Nat) (w w' : World V) : Prop where
  step : Step T w w'
  vars : ∀ z, z ≠ x → w'.vars z = w.vars z
  skel : ∀ z a c, z ≠ x → w.vars z = some a → a.buffer = some (c, 0) → w'.skel c = w.skel c
  ruin : Ruin x b w'

theorem Hurt.mono {T U : Nat → Prop} {x b : Nat} {w w' : World V} (h : Hurt T x b w w') (hT : ∀ z, T z → U z) :
    Hurt U x b w w' := ⟨h.step.mono hT, h.vars, h.skel, h.ruin⟩

theorem Hurt.after {T : Nat → Prop} {x b : Nat} {w0 w w' : World V} (hs : Step (· = x) w0 w) (hT : T x)
    (h : Hurt T x b w w') : Hurt T x b w0 w' := by
  refine ⟨(hs.mono (by rintro z rfl; exact hT)).trans h.step, fun z hz => by rw [h.vars z hz, hs.vars z hz],
    fun z a c hz h1 h2 => ?_, h.ruin⟩
  rw [h.skel z a c hz (by rw [hs.vars z hz]; exact h1) h2]
  unfold World.skel
  rw [hs.heap z a c hz h1 h2]

/-- The destructor of the object. -/
theorem Ruin.delete {ty : Types V} {x b : Nat} {w : World V} (h : Ruin x b w) (hv : w.vars x ≠ none) :
    Nda.delete ty x w = .error .dead := by
  obtain ⟨a, ha⟩ := Option.ne_none_iff_exists'.1 hv
  obtain ⟨blk, _, hd⟩ := h.dead
  obtain ⟨h1, h2, _, h3⟩ := hd a ha
  exact delete_dead ty ha h1 h2 h3

/-- A constructor left by the exception. -/
theorem Ruin.drop {x b : Nat} {w : World V} (h : Ruin x b w) : Ruin x b (w.setVar x none) := by
  refine ⟨fun z a hz h1 => h.other z a hz (by rwa [setVar_vars, if_neg hz] at h1), ?_⟩
  obtain ⟨blk, hb, _⟩ := h.dead
  exact ⟨blk, hb, fun a ha => by rw [setVar_self] at ha; simp at ha⟩

/-- The destructor of another object. -/
theorem Hurt.deleteOther {ty : Types V} {T : Nat → Prop} {x b m : Nat} {w w' : World V} {a : Arr} (hI : Inv ty w)
    (h : Hurt T x b w w') (hmx : m ≠ x) (ha : w.vars m = some a) :
    ∃ w'', Nda.delete ty m w' = .ok w'' ∧ Step (· = m) w' w'' ∧ w''.vars m = none ∧ Ruin x b w'' := by
  have ha' : w'.vars m = some a := by rw [h.vars m hmx]; exact ha
  have hg : Good ty w' a := (hI.good m a ha).mono fun c hc => h.skel m a c hmx ha hc
  have drop : ∀ w1 : World V, (∀ z, z ≠ m → w1.vars z = w'.vars z) → w1.heap b = w'.heap b →
      Ruin x b (w1.setVar m none) := by
    intro w1 hv hb
    obtain ⟨blk, hb', hd⟩ := h.ruin.dead
    refine ⟨fun z a2 hz h1 => ?_, blk, by rw [setVar_heap, hb, hb'], fun a2 h2 => ?_⟩
    · rw [setVar_vars] at h1
      split at h1
      · simp at h1
      · rename_i hzm
        rw [hv z hzm] at h1
        exact h.ruin.other z a2 hz h1
    · rw [setVar_vars, if_neg (Ne.symm hmx), hv x (Ne.symm hmx)] at h2
      obtain ⟨h3, h4⟩ := hd a2 h2
      exact ⟨⟨h3.buffer, h3.base, by rw [setVar_heap, hb]; exact h3.heap, h3.arena, h3.size, h3.bufferSize, h3.known⟩, h4⟩
  unfold Nda.delete
  rcases hg.own with ⟨hn, _⟩ | ⟨c, blk, hh, hl⟩
  · rw [deallocate_null ty ha' hn.base, bind_ok]
    exact ⟨_, rfl, step_setVar _ _ _, setVar_self _ _ _, drop w' (fun _ _ => rfl) rfl⟩
  · obtain ⟨k, e⟩ := deallocate_holds ty ha' hh hg.shape.nonNeg hl
    rw [e, bind_ok]
    have hcb : b ≠ c := by
      rintro rfl
      exact h.ruin.other m a hmx ha' hh.buffer
    refine ⟨_, rfl, ⟨fun z hz => ?_, fun z a2 d hz h1 h2 => ?_⟩, setVar_self _ _ _, drop _ (fun z hz => ?_) ?_⟩
    · rw [setVar_vars, if_neg hz, setVar_vars, if_neg hz]; rfl
    · rw [setVar_heap, setVar_heap, setBlock_heap]
      rw [if_neg]
      rintro rfl
      by_cases hzx : z = x
      · subst hzx
        obtain ⟨blk2, _, hd⟩ := h.ruin.dead
        have := (hd a2 h1).1.buffer
        rw [h2] at this
        simp at this
        exact hcb this.symm
      · exact hI.apart z m a2 a d hz (by rw [← h.vars z hzx]; exact h1) ha h2 hh.buffer
    · rw [setVar_vars, if_neg hz]; rfl
    · rw [setVar_heap, setBlock_heap, if_neg hcb]

/-! ### Element loops -/

/-- An object whose elements are about to be constructed. -/
structure Prep (w w' : World V) (x : Nat) (a : Arr) : Prop where
  var : w'.vars x = some a
  step : Step (· = x) w w'
  apart : Apart w'
  nonNeg : NonNeg a.shape
  own : (IsNull a ∧ ¬ Pos a.shape) ∨ ∃ b blk, Holds w' a b blk ∧ blk.live = fun _ => 0

omit [Hollow V] in
theorem hurt_of {T : Nat → Prop} {w w' : World V} {x b : Nat} {a : Arr} {blk' : Block V} (ha : w.vars x = some a)
    (hap : Apart w) (hn : NonNeg a.shape) (hv : w'.vars = w.vars)
    (hskel : ∀ z a' c, z ≠ x → w.vars z = some a' → a'.buffer = some (c, 0) → w'.skel c = w.skel c)
    (hheap : ∀ z a' c, ¬ T z → w.vars z = some a' → a'.buffer = some (c, 0) → w'.heap c = w.heap c)
    (hh : Holds w' a b blk') (hal : aliveIn blk' < a.shape.size) (hd : ∃ o, blk'.live o < cnt a.shape o) :
    Hurt T x b w w' := by
  refine ⟨⟨fun z _ => by rw [hv], hheap⟩, fun z _ => by rw [hv], hskel, fun z a' hz h1 h2 => ?_, blk', hh.heap, fun a' h1 => ?_⟩
  · rw [hv] at h1
    exact hap z x a' a b hz h1 ha h2 hh.buffer
  · rw [hv, ha] at h1
    simp only [Option.some.injEq] at h1
    subst h1
    exact ⟨hh, hn, hal, hd⟩

/-- `construct` left by an exception. -/
theorem constructX_throw {p : Plan V} (hp : p.who = .constructor) (ty : Types V) {w : World V} {x : Nat} {a : Arr}
    {b : Nat} {blk : Block V} (ha : w.vars x = some a) (hh : Holds w a b blk) (hn : NonNeg a.shape) (c : Call) (v : V) {k : Nat}
    (hk : k < a.shape.size) :
    constructX p ty x c v w k = (constructThrow ty x c v k w >>= fun w => .ok (.thrown w)) := by
  unfold constructX constructThrow
  rw [get_ok ha, bind_ok, bind_ok, assert_ok (by simp [hh.base]), bind_ok, bind_ok, hh.base]
  dsimp only
  rw [each_calling hp, dif_pos (by rw [(trace_perm hn).length_eq, List.length_map]; rwa [boxList_size hn])]
  cases ((a.shape.forEachValue (some (0 - a.shape.flatMin))).take k).foldlM
    (fun w p => constructAt c b p v w) w <;> rfl

theorem constructX_hit {p : Plan V} (hp : p.who = .constructor) (ty : Types V) {w0 w : World V} {x : Nat} {a : Arr}
    (h : Prep w0 w x a) (c : Call) (v : V) (n : Nat) :
    Hit (construct ty x c v w) (fun w' => ∃ b, Hurt (· = x) x b w w' ∧ w'.vars x ≠ none) (constructX p ty x c v w n) := by
  rcases h.own with ⟨hnull, hpos⟩ | ⟨b, blk, hh, hl⟩
  · unfold constructX construct
    rw [get_ok h.var, bind_ok, bind_ok, hnull.base]
    dsimp only
    cases e : assert ty (Option.isSome (none : Option (Nat × Int)) || a.shape.empty) w with
    | error f => exact Or.inl rfl
    | ok w1 => exact hit_lift _ _ w1 n
  · by_cases hk : n < a.shape.size
    · rw [constructX_throw hp ty h.var hh h.nonNeg c v hk]
      obtain ⟨w', blk', e, hs, hh', hal, hd⟩ := constructThrow_holds ty h.var hh h.nonNeg hl c v hk
      rw [e, bind_ok]
      refine ⟨b, hurt_of h.var h.apart h.nonNeg hs.vars ?_ ?_ hh' (by omega) hd, by rw [hs.vars, h.var]; simp⟩
      · intro z a' d hz h1 h2
        exact hs.skel (by rintro rfl; exact h.apart z x a' a d hz h1 h.var h2 hh.buffer)
      · intro z a' d hz h1 h2
        exact hs.heap d (by rintro rfl; exact h.apart z x a' a d hz h1 h.var h2 hh.buffer)
    · unfold constructX construct
      rw [get_ok h.var, bind_ok, bind_ok, assert_ok (by simp [hh.base]), bind_ok, bind_ok, hh.base]
      dsimp only
      rw [each_calling hp, dif_neg (by rw [(trace_perm h.nonNeg).length_eq, List.length_map]; rwa [boxList_size h.nonNeg])]
      cases (a.shape.forEachValue (some (0 - a.shape.flatMin))).foldlM (fun w p => constructAt c b p v w) w with
      | error f => exact Or.inl rfl
      | ok w1 => rfl

omit [Hollow V] in
theorem leaveAt_ok {w : World V} {b : Nat} {o : Int} {blk : Block V} (h : w.heap b = some blk) (h0 : 0 ≤ o) (h1 : o < blk.size)
    (hl : 0 < blk.live o) (f : V → V) :
    ∃ w' val, leaveAt b o f w = .ok w' ∧ SameBut (· = b) w w' ∧ w'.heap b = some { blk with val := val } := by
  unfold leaveAt
  rw [block_ok h h0 h1, bind_ok, if_neg (by omega)]
  exact ⟨_, _, rfl, ⟨rfl, rfl, rfl, fun c hc => by rw [setBlock_heap, if_neg hc]⟩, by rw [setBlock_heap, if_pos rfl]⟩

/-- `move_construct` left by an exception. -/
theorem moveConstructX_throw {p : Plan V} (hp : p.who = .constructor) (ty : Types V) {w : World V} {x y : Nat} {a o : Arr} {b c : Nat}
    {blk sblk : Block V} (ha : w.vars x = some a) (ho : w.vars y = some o) (hh : Holds w a b blk)
    (hs : Holds w o c sblk) (hbc : c ≠ b) (hsh : a.shape = o.shape) (hn : NonNeg a.shape)
    (hl : blk.live = fun _ => 0) (hsl : sblk.live = cnt o.shape)
    {k : Nat} (hk : k < a.shape.size) :
    ∃ w' blk' val, transferX false p ty x y w k = .ok (.thrown w') ∧ SameBut (fun d => d = c ∨ d = b) w w' ∧ Holds w' a b blk' ∧
      w'.heap c = some { sblk with val := val } ∧ aliveIn blk' = k ∧ ∃ o, blk'.live o < cnt a.shape o := by
  rw [← hsh] at hsl
  generalize hT : copyForEachValue a.shape (some (0 - a.shape.flatMin)) a.shape (some (0 - a.shape.flatMin)) = T
  have hlen : k < (T.map Prod.snd).length := by
    rw [← hT, List.length_map, (pair_trace hn).length_eq, List.length_map]; rwa [boxList_size hn]
  have hlen' : k < T.length := by simpa using hlen
  have hmemT : ∀ p ∈ T, p.1 = p.2 ∧ ∃ i, InBox a.shape i ∧ 0 - a.shape.flatMin + offsetOf a.shape i = p.2 :=
    fun p hp => (pair_mem hn).1 (by rw [hT]; exact hp)
  have hsrc : ∀ p ∈ T, (0 ≤ p.1 ∧ p.1 < sblk.size) ∧ 0 < sblk.live p.1 := by
    intro p hp
    obtain ⟨h1, i, hi, h2⟩ := hmemT p hp
    refine ⟨by rw [hs.size, ← hsh, h1, ← h2]; exact elem_range hi, ?_⟩
    rw [hsl, h1, cnt_pos_iff]; exact ⟨i, hi, h2⟩
  have hin : ∀ p ∈ T.take k, 0 ≤ p.2 ∧ p.2 < blk.size := by
    intro p hp
    obtain ⟨_, i, hi, h2⟩ := hmemT p (List.mem_of_mem_take hp)
    rw [hh.size, ← h2]; exact elem_range hi
  obtain ⟨w1, vs, vd, e, s, _, h1, h2, _⟩ := moveConstruct_loop ty hbc (T.take k) w sblk blk hs.heap hh.heap
    (fun p hp => (hsrc p (List.mem_of_mem_take hp)).1) (fun p hp => (hsrc p (List.mem_of_mem_take hp)).2) hin
  obtain ⟨w2, val, e2, s2, h3⟩ := leaveAt_ok (o := T[k].1) h1 (hsrc T[k] (List.getElem_mem hlen')).1.1
    (hsrc T[k] (List.getElem_mem hlen')).1.2 (hsrc T[k] (List.getElem_mem hlen')).2 p.src
  have hb2 : w2.heap b = some { blk with live := fun p => blk.live p + ((T.take k).map Prod.snd).count p, val := vd } := by
    rw [s2.heap b (Ne.symm hbc)]; exact h2
  refine ⟨w2, _, val, ?_, ⟨s2.vars.trans s.vars, s2.nextVar.trans s.nextVar, s2.nextBlock.trans s.nextBlock, fun d hd => ?_⟩,
    ⟨hh.buffer, hh.base, hb2, hh.arena, hh.size, hh.bufferSize, hh.known⟩, h3, ?_, ?_⟩
  · unfold transferX
    rw [get_ok ha, bind_ok, get_ok ho, bind_ok, assert_ok (by simp [hh.base, hsh]), bind_ok, hh.base, hs.base, ← hsh]
    show each (copyForEachValue a.shape (some (0 - a.shape.flatMin)) a.shape (some (0 - a.shape.flatMin)))
      (fun q => calling p .constructor (leaveAt c q.1 p.src) (moveConstructAt ty c b q)) w k = _
    rw [hT, each_calling hp, dif_pos hlen', e, bind_ok, e2, bind_ok]
  · rw [s2.heap d (fun h => hd (Or.inl h)), s.heap d hd]
  · unfold aliveIn
    simp only [hl, Nat.zero_add]
    rw [sum_count _ _ (by
      intro q hq
      obtain ⟨p, hp, rfl⟩ := List.mem_map.1 hq
      exact hin p hp), List.length_map, List.length_take]
    omega
  · obtain ⟨q, hq⟩ := take_count_lt hlen
    rw [← List.map_take] at hq
    conv at hq => rhs; rw [← hT, pair_snd_count hn]
    exact ⟨q, by simpa [hl] using hq⟩

/-- `copy_construct` left by an exception. -/
theorem copyConstructX_throw {p : Plan V} (hp : p.who = .constructor) (ty : Types V) {w : World V} {x y : Nat} {a o : Arr} {b c : Nat}
    {blk sblk : Block V} (ha : w.vars x = some a) (ho : w.vars y = some o) (hh : Holds w a b blk)
    (hs : Holds w o c sblk) (hsh : a.shape = o.shape) (hn : NonNeg a.shape) {k : Nat} (hk : k < a.shape.size) :
    transferX true p ty x y w k = (copyConstructThrow ty x y k w >>= fun w => .ok (.thrown w)) := by
  unfold transferX copyConstructThrow
  rw [get_ok ha, bind_ok, bind_ok, get_ok ho, bind_ok, bind_ok, assert_ok (by simp [hh.base, hsh]), bind_ok, bind_ok,
    hh.base, hs.base, ← hsh]
  dsimp only
  show each (copyForEachValue a.shape (some (0 - a.shape.flatMin)) a.shape (some (0 - a.shape.flatMin)))
      (fun q => calling p .constructor .ok (copyConstructAt c b q)) w k = _
  rw [each_calling hp, dif_pos (by rw [(pair_trace hn).length_eq, List.length_map]; rwa [boxList_size hn])]
  cases ((copyForEachValue a.shape (some (0 - a.shape.flatMin)) a.shape (some (0 - a.shape.flatMin))).take k).foldlM
    (fun w p => copyConstructAt c b p w) w <;> rfl

theorem transferX_hit (keep : Bool) {p : Plan V} (hp : p.who = .constructor) (ty : Types V) {w0 w : World V} {x y : Nat}
    {a o : Arr} (h : Prep w0 w x a) (ho : w.vars y = some o) (hxy : x ≠ y)
    (hO : o.base = none ∨ ∃ c sblk, Holds w o c sblk ∧ sblk.live = cnt o.shape)
    (hsh : a.shape = o.shape ∨ o.base = none) (n : Nat) :
    Hit (transfer keep ty x y w) (fun w' => ∃ b, Hurt (fun z => z = x ∨ (keep = false ∧ z = y)) x b w w' ∧ w'.vars x ≠ none)
      (transferX keep p ty x y w n) := by
  have e0 : transfer keep ty x y w = (assert ty ((a.base.isSome || a.shape.empty) && decide (a.shape = o.shape)) w >>=
      forEachPair ty o.shape o.base a.shape a.base (if keep then copyConstructAt else moveConstructAt ty)) := by
    unfold transfer
    cases keep
    · simp only [Bool.false_eq_true, if_false]
      unfold moveConstruct
      rw [get_ok h.var, bind_ok, get_ok ho, bind_ok]
    · simp only [if_true]
      unfold copyConstruct
      rw [get_ok h.var, bind_ok, get_ok ho, bind_ok]
  have easy : (a.base = none ∨ o.base = none) → Hit (transfer keep ty x y w)
      (fun w' => ∃ b, Hurt (fun z => z = x ∨ (keep = false ∧ z = y)) x b w w' ∧ w'.vars x ≠ none)
      (transferX keep p ty x y w n) := by
    intro hnone
    rw [e0]
    unfold transferX
    rw [get_ok h.var, bind_ok, get_ok ho, bind_ok]
    cases assert ty ((a.base.isSome || a.shape.empty) && decide (a.shape = o.shape)) w with
    | error f => exact Or.inl rfl
    | ok w1 =>
      rw [bind_ok, bind_ok]
      unfold forEachPairX forEachPair
      rcases hnone with hb | hb
      · rw [hb]
        cases o.base <;> exact hit_lift _ _ w1 n
      · rw [hb]
        cases a.base <;> exact hit_lift _ _ w1 n
  rcases h.own with ⟨hnull, _⟩ | ⟨b, blk, hh, hl⟩
  · exact easy (Or.inl hnull.base)
  rcases hO with hb | ⟨c, sblk, hs, hsl⟩
  · exact easy (Or.inr hb)
  have hsh : a.shape = o.shape := hsh.resolve_right (by rw [hs.base]; simp)
  have hbc : c ≠ b := by
    rintro rfl
    exact h.apart x y a o c hxy h.var ho hh.buffer hs.buffer
  by_cases hk : n < a.shape.size
  · cases keep
    · obtain ⟨w', blk', val, e, s, hh', hc', hal, hd⟩ := moveConstructX_throw hp ty h.var ho hh hs hbc hsh h.nonNeg hl hsl hk
      rw [e]
      refine ⟨b, hurt_of h.var h.apart h.nonNeg s.vars ?_ ?_ hh' (by omega) hd, by rw [s.vars, h.var]; simp⟩
      · intro z a' d hz h1 h2
        have hdb : d ≠ b := by rintro rfl; exact h.apart z x a' a d hz h1 h.var h2 hh.buffer
        by_cases hdc : d = c
        · subst hdc
          rw [skel_some hs.heap, skel_some hc']
        · exact s.skel (by rintro (h | h); exact hdc h; exact hdb h)
      · intro z a' d hz h1 h2
        simp only [true_and, not_or] at hz
        refine s.heap d ?_
        rintro (rfl | rfl)
        · exact h.apart z y a' o d hz.2 h1 ho h2 hs.buffer
        · exact h.apart z x a' a d hz.1 h1 h.var h2 hh.buffer
    · rw [copyConstructX_throw hp ty h.var ho hh hs hsh h.nonNeg hk]
      obtain ⟨w', blk', e, s, hh', hal, hd⟩ := copyConstructThrow_holds ty h.var ho hh hs hbc hsh h.nonNeg hl hsl hk
      rw [e, bind_ok]
      refine ⟨b, hurt_of h.var h.apart h.nonNeg s.vars ?_ ?_ hh' (by omega) hd, by rw [s.vars, h.var]; simp⟩
      · intro z a' d hz h1 h2
        exact s.skel (by rintro rfl; exact h.apart z x a' a d hz h1 h.var h2 hh.buffer)
      · intro z a' d hz h1 h2
        simp only [Bool.true_eq_false, false_and, or_false] at hz
        exact s.heap d (by rintro rfl; exact h.apart z x a' a d hz h1 h.var h2 hh.buffer)
  · rw [e0]
    unfold transferX
    rw [get_ok h.var, bind_ok, get_ok ho, bind_ok, assert_ok (by simp [hh.base, hsh]), bind_ok, bind_ok, hh.base, hs.base, ← hsh]
    have hlen : ¬ n < (copyForEachValue a.shape (some (0 - a.shape.flatMin)) a.shape (some (0 - a.shape.flatMin))).length := by
      rw [(pair_trace h.nonNeg).length_eq, List.length_map]; rwa [boxList_size h.nonNeg]
    unfold forEachPairX forEachPair
    dsimp only
    cases keep
    · show Hit _ _ (each (copyForEachValue a.shape (some (0 - a.shape.flatMin)) a.shape (some (0 - a.shape.flatMin)))
        (fun q => calling p .constructor (leaveAt c q.1 p.src) (moveConstructAt ty c b q)) w n)
      rw [each_calling hp, dif_neg hlen]
      simp only [Bool.false_eq_true, if_false]
      cases (copyForEachValue a.shape (some (0 - a.shape.flatMin)) a.shape (some (0 - a.shape.flatMin))).foldlM
        (fun w q => moveConstructAt ty c b q w) w with
      | error f => exact Or.inl rfl
      | ok w1 => rfl
    · show Hit _ _ (each (copyForEachValue a.shape (some (0 - a.shape.flatMin)) a.shape (some (0 - a.shape.flatMin)))
        (fun q => calling p .constructor .ok (copyConstructAt c b q)) w n)
      rw [each_calling hp, dif_neg hlen]
      simp only [if_true]
      cases (copyForEachValue a.shape (some (0 - a.shape.flatMin)) a.shape (some (0 - a.shape.flatMin))).foldlM
        (fun w q => copyConstructAt c b q w) w with
      | error f => exact Or.inl rfl
      | ok w1 => rfl

/-! ### `assign` -/

/-- Apart from the memory of `x`, which is new or its own. -/
theorem apart_of {ty : Types V} {w w' : World V} {x : Nat} {a : Arr} (hI : Inv ty w) (hst : Step (· = x) w w')
    (ha : w'.vars x = some a)
    (h : ∀ z a' c, z ≠ x → w.vars z = some a' → a'.buffer = some (c, 0) → a.buffer ≠ some (c, 0)) : Apart w' := by
  intro y z a1 a2 c hyz h1 h2 h3 h4
  by_cases hy : y = x
  · subst hy
    rw [ha] at h1
    simp only [Option.some.injEq] at h1
    subst h1
    rw [hst.vars z (Ne.symm hyz)] at h2
    exact h z a2 c (Ne.symm hyz) h2 h4 h3
  · rw [hst.vars y hy] at h1
    by_cases hz : z = x
    · subst hz
      rw [ha] at h2
      simp only [Option.some.injEq] at h2
      subst h2
      exact h y a1 c hy h1 h3 h4
    · rw [hst.vars z hz] at h2
      exact hI.apart y z a1 a2 c hyz h1 h2 h3 h4

theorem allocate_prep {ty : Types V} {w0 w : World V} {x : Nat} {a : Arr} (hI0 : Inv ty w0) (hst : Step (· = x) w0 w)
    (hI : InvBut ty w x) (ha : w.vars x = some a) (hn : IsNull a) (hs : ShapeOk ty a.shape) :
    ∃ w' a', allocate ty x w = .ok w' ∧ a'.shape = a.shape.resolve ∧ Prep w0 w' x a' := by
  obtain ⟨w1, a1, e1, hv1, hnv, hsh, hal, _, hh1, halt⟩ := allocate_ok ty ha hn.buffer hn.idle hs
  have hoth : ∀ y a2 c, y ≠ x → w.vars y = some a2 → a2.buffer = some (c, 0) → c ≠ w.nextBlock := by
    rintro y a2 c hy ha2 hc rfl
    exact ((hI.good y a2 hy ha2).heap_ne hc).1 (hI.fresh _ (Nat.le_refl _))
  have hst1 : Step (· = x) w0 w1 := hst.trans ⟨fun y hy => by rw [hv1, if_neg hy],
    fun y a2 c hy h1 h2 => hh1 c (hoth y a2 c hy h1 h2)⟩
  have hv : w1.vars x = some a1 := by rw [hv1]; simp
  refine ⟨w1, a1, e1, hsh, hv, hst1, apart_of hI0 hst1 hv ?_, by rw [hsh]; exact hs.resolve.nonNeg, ?_⟩
  · intro z a2 c hz h1 h2 h3
    have h4 : w.vars z = some a2 := by rw [hst.vars z hz]; exact h1
    rcases halt with ⟨h, _⟩ | ⟨blk, hh, _⟩
    · rw [h.buffer] at h3; simp at h3
    · have := hh.buffer
      rw [h3] at this
      simp at this
      exact hoth z a2 c hz h4 h2 this
  · rcases halt with ⟨h, h', _⟩ | ⟨blk, hh, hl, _⟩
    · exact Or.inl ⟨h, h'⟩
    · exact Or.inr ⟨_, blk, hh, hl⟩

theorem realloc_prep {ty : Types V} {w : World V} {x : Nat} {a : Arr} (hI : Inv ty w) (ha : w.vars x = some a)
    {s : Shape} (hs : ShapeOk ty s) :
    ∃ w' a', (deallocate ty x w >>= fun w => setShapeMember x s w >>= fun w => allocate ty x w) = .ok w' ∧
      a'.shape = s.resolve ∧ Prep w w' x a' := by
  obtain ⟨w1, a1, e1, hI1, hv1, hn1, hal1, _, hnv1, hst1⟩ := deallocate_ok ty hI ha
  have ha1 : w1.vars x = some a1 := by rw [hv1]; simp
  obtain ⟨w', a', e, h1, h2⟩ := allocate_prep hI (hst1.trans (step_setVar w1 x (some { a1 with shape := s })))
    (hI1.setVar (some { a1 with shape := s })) (setVar_self _ _ _) ⟨hn1.buffer, hn1.base, hn1.idle⟩ hs
  exact ⟨w', a', by rw [e1, bind_ok, setShapeMember_ok ha1, bind_ok, e], h1, h2⟩

theorem destroy_prep {ty : Types V} {w : World V} {x : Nat} {a : Arr} (hI : Inv ty w) (ha : w.vars x = some a)
    (hh : NotHollow a) : ∃ w', destroy ty x w = .ok w' ∧ Prep w w' x a := by
  have hg := hI.good x a ha
  by_cases hb : a.base = none
  · have hn := hh hb
    refine ⟨w, destroy_null ty ha hb (fun _ => (empty_iff_not_pos hg.shape.nonNeg).2 hn), ha, Step.refl _ _, hI.apart,
      hg.shape.nonNeg, Or.inl ⟨hg.null hb, hn⟩⟩
  · obtain ⟨w1, b, blk, e, h⟩ := raw_destroy hI ha hb
    refine ⟨w1, e, h.var, h.step, apart_of hI h.step h.var ?_, hg.shape.nonNeg, Or.inr ⟨b, blk, h.holds, h.live⟩⟩
    intro z a' c hz h1 h2 h3
    have := h.other z a' c hz h1 h2
    have h4 := h.holds.buffer
    rw [h3] at h4
    simp at h4
    exact this h4

theorem assignFillX_hit {p : Plan V} (hp : p.who = .constructor) {ty : Types V} {w : World V}
    {x : Nat} {a : Arr} (n : Nat) (hI : Inv ty w) (ha : w.vars x = some a) (hh : NotHollow a) {s : Shape}
    (hs : ShapeOk ty s) (v : V) :
    Hit (assignFill ty x s v w) (fun w' => ∃ b, Hurt (· = x) x b w w' ∧ w'.vars x ≠ none) (assignFillX p ty x s v w n) := by
  unfold assignFillX assignFill
  rw [get_ok ha, bind_ok, bind_ok, allocateX_lift (by rw [hp]; simp)]
  dsimp only
  have fin : ∀ w1 n1 a1, Prep w w1 x a1 → Hit (construct ty x .copyConstruct v w1)
      (fun w' => ∃ b, Hurt (· = x) x b w w' ∧ w'.vars x ≠ none) (constructX p ty x .copyConstruct v w1 n1) :=
    fun w1 n1 a1 h => (constructX_hit hp ty h _ v n1).mono fun w' h' => by
      obtain ⟨b, h1, h2⟩ := h'
      exact ⟨b, h1.after h.step rfl, h2⟩
  by_cases hss : a.shape = s.resolve
  · rw [if_pos hss, if_pos hss]
    obtain ⟨w1, e1, h1⟩ := destroy_prep hI ha hh
    refine hit_seq (f0 := destroy ty x) (hit_lift _ _ w n) fun w1' n1 e1' => ?_
    rw [e1] at e1'
    simp only [Except.ok.injEq] at e1'
    subst e1'
    exact fin w1 n1 a h1
  · rw [if_neg hss, if_neg hss]
    obtain ⟨w1, a1, e1, _, h1⟩ := realloc_prep hI ha hs.resolve
    have h := hit_seq (f0 := fun w => deallocate ty x w >>= fun w => setShapeMember x s.resolve w >>= fun w => allocate ty x w)
      (f := lift (deallocate ty x) ⨟ lift (setShapeMember x s.resolve) ⨟ lift (allocate ty x))
      (g := constructX p ty x .copyConstruct v) (g0 := construct ty x .copyConstruct v) (w := w) (n := n)
      (Q := fun w' => ∃ b, Hurt (· = x) x b w w' ∧ w'.vars x ≠ none)
      (hit_seq (f0 := deallocate ty x) (hit_lift _ _ w n) fun w2 n2 _ =>
        hit_seq (f0 := setShapeMember x s.resolve) (hit_lift _ _ w2 n2) fun w3 n3 _ => hit_lift _ _ w3 n3)
      (fun w1' n1 e1' => by
        rw [e1] at e1'
        simp only [Except.ok.injEq] at e1'
        subst e1'
        exact fin w1 n1 a1 h1)
    simpa only [bind_assoc] using h

theorem assignArrX_hit (keep : Bool) {p : Plan V} (hp : p.who = .constructor) {ty : Types V}
    {w : World V} {x y : Nat} {a o : Arr} (n : Nat) (hI : Inv ty w) (ha : w.vars x = some a) (ho : w.vars y = some o) :
    Hit (assignArr keep ty x y w)
      (fun w' => ∃ b, Hurt (fun z => z = x ∨ (keep = false ∧ z = y)) x b w w' ∧ w'.vars x ≠ none)
      (assignArrX keep p ty x y w n) := by
  unfold assignArrX
  rw [get_ok ha, bind_ok, get_ok ho, bind_ok, allocateX_lift (by rw [hp]; simp)]
  have e1 : assignArr keep ty x y = (if keep then assignCopy ty x y else assignMove ty x y) := by
    funext w; unfold assignArr; cases keep <;> rfl
  by_cases hbb : a.base = o.base
  · rw [if_pos hbb, e1]
    exact hit_lift _ _ w n
  · rw [if_neg hbb]
    have hxy : x ≠ y := by
      rintro rfl
      rw [ha] at ho
      simp only [Option.some.injEq] at ho
      exact hbb (by rw [ho])
    have e0 : assignArr keep ty x y w =
      ((if a.base.isSome && decide (a.shape = o.shape) then destroy ty x w
      else deallocate ty x w >>= fun w => setShapeMember x o.shape w >>= fun w =>
        allocate ty x w) >>= transfer keep ty x y) := by
      unfold assignArr transfer
      cases keep
      · simp only [Bool.false_eq_true, if_false]
        unfold assignMove
        rw [get_ok ha, get_ok ho]
        simp only [bind_ok, if_neg hbb]
        split <;> simp only [bind_assoc]
      · simp only [if_true]
        unfold assignCopy
        rw [get_ok ha, get_ok ho]
        simp only [bind_ok, if_neg hbb]
        split <;> simp only [bind_assoc]
    rw [e0]
    have hog := hI.good y o ho
    have fin : ∀ w1 n1 a1, Prep w w1 x a1 → (a1.shape = o.shape ∨ o.base = none) → Hit (transfer keep ty x y w1)
        (fun w' => ∃ b, Hurt (fun z => z = x ∨ (keep = false ∧ z = y)) x b w w' ∧ w'.vars x ≠ none)
        (transferX keep p ty x y w1 n1) := by
      intro w1 n1 a1 h hsh
      refine (transferX_hit keep hp ty h (by rw [h.step.vars y (Ne.symm hxy)]; exact ho) hxy ?_ hsh n1).mono fun w' h' => by
        obtain ⟨b, h1, h2⟩ := h'
        exact ⟨b, h1.after h.step (Or.inl rfl), h2⟩
      by_cases hb : o.base = none
      · exact Or.inl hb
      · obtain ⟨c, sblk, hs, hsl⟩ := hog.full hb
        exact Or.inr ⟨c, sblk, ⟨hs.buffer, hs.base, by
          rw [h.step.heap y o c (Ne.symm hxy) ho hs.buffer]; exact hs.heap, hs.arena, hs.size, hs.bufferSize, hs.known⟩, hsl⟩
    by_cases hc : (a.base.isSome && decide (a.shape = o.shape)) = true
    · rw [if_pos hc, if_pos hc]
      simp only [Bool.and_eq_true, Option.isSome_iff_ne_none, decide_eq_true_eq] at hc
      obtain ⟨w1, e1, h1⟩ := destroy_prep hI ha (fun h => absurd h hc.1)
      refine hit_seq (f0 := destroy ty x) (hit_lift _ _ w n) fun w1' n1 e1' => ?_
      rw [e1] at e1'
      simp only [Except.ok.injEq] at e1'
      subst e1'
      exact fin w1 n1 a h1 (Or.inl hc.2)
    · rw [if_neg hc, if_neg hc]
      obtain ⟨w1, a1, e1, hsh, h1⟩ := realloc_prep hI ha hog.shape
      refine hit_seq (f0 := fun w => deallocate ty x w >>= fun w => setShapeMember x o.shape w >>= fun w => allocate ty x w)
        (hit_seq (f0 := deallocate ty x) (hit_lift _ _ w n) fun w2 n2 _ =>
          hit_seq (f0 := setShapeMember x o.shape) (hit_lift _ _ w2 n2) fun w3 n3 _ => hit_lift _ _ w3 n3)
        fun w1' n1 e1' => ?_
      rw [e1] at e1'
      simp only [Except.ok.injEq] at e1'
      subst e1'
      refine fin w1 n1 a1 h1 ?_
      by_cases hb : o.base = none
      · exact Or.inr hb
      · obtain ⟨c, sblk, hs, _⟩ := hog.full hb
        left; rw [hsh]; exact resolve_of_known hs.known

/-! ### Constructors -/

theorem buildX_hit {ty : Types V} {T : Nat → Prop} {w : World V} (hI : Inv ty w) (a : Arr) {body : OpX V} {body0 : Op V} (n : Nat)
    (h : Hit (body0 (w.push a)) (fun w' => ∃ b, Hurt (fun z => z = w.nextVar ∨ T z) w.nextVar b (w.push a) w' ∧ w'.vars w.nextVar ≠ none)
      (body (w.push a) n)) :
    Hit (body0 (w.push a)) (fun w' => ∃ b, Hurt T w.nextVar b w w') (buildX a body w n) := by
  unfold buildX
  refine hit_unwinding (Q := fun w' => ∃ b, Hurt (fun z => z = w.nextVar ∨ T z) w.nextVar b (w.push a) w' ∧ w'.vars w.nextVar ≠ none) ?_ ?_
  · have : (lift (fun w => .ok (w.push a)) ⨟ body) w n = body (w.push a) n := rfl
    rw [this]; exact h
  · rintro w1 ⟨b, h1, _⟩
    have h2 := h1.after (hI.step_push a) (Or.inl rfl)
    refine Or.inr ⟨_, rfl, b, ?_, fun z hz => ?_, h2.skel, h2.ruin.drop⟩
    · refine Step.trim (n := w.nextVar) ?_ (hI.freshVar _ le_rfl) (setVar_self _ _ _)
      exact (h2.step.trans ((step_setVar _ _ _).mono fun z hz => Or.inl hz)).mono fun z hz => hz.symm
    · rw [setVar_vars, if_neg hz]; exact h2.vars z hz

theorem newShapeAllocX_hit {p : Plan V} (hp : p.who = .constructor) {ty : Types V} {w : World V}
    (n : Nat) (hI : Inv ty w) {s : Shape} (hs : ShapeOk ty s) (al : Nat) :
    Hit (newShapeAlloc ty s al w) (fun w' => ∃ b, Hurt (fun _ => False) w.nextVar b w w') (newShapeAllocX p ty s al w n) := by
  unfold newShapeAllocX newShapeAlloc
  rw [allocateX_lift (by rw [hp]; simp)]
  refine buildX_hit (body0 := fun w' => allocate ty w.nextVar w' >>= construct ty w.nextVar .defaultConstruct ty.defaultValue)
    hI _ n ?_
  obtain ⟨w1, a1, e1, _, h1⟩ := allocate_prep (a := ⟨⟨al, w.nextVar, false⟩, none, 0, none, s⟩) hI (hI.step_push _)
    (hI.push _) (by rw [push_vars, if_pos rfl]) ⟨rfl, rfl, rfl⟩ hs
  refine hit_seq (f0 := allocate ty w.nextVar) (hit_lift _ _ _ n) fun w1' n1 e1' => ?_
  rw [e1] at e1'
  simp only [Except.ok.injEq] at e1'
  subst e1'
  have hst : Step (· = w.nextVar) (w.push ⟨⟨al, w.nextVar, false⟩, none, 0, none, s⟩) w1 :=
    ⟨fun y hy => by rw [h1.step.vars y hy, push_vars, if_neg hy], fun y a c hy h2 h3 =>
      h1.step.heap y a c hy (by rwa [push_vars, if_neg hy] at h2) h3⟩
  refine (constructX_hit hp ty h1 _ _ n1).mono fun w' h' => ?_
  obtain ⟨b, h2, h3⟩ := h'
  exact ⟨b, (h2.after (T := (· = w.nextVar)) hst rfl).mono fun z hz => Or.inl hz, h3⟩

/-- A statement is left by an exception: it has only changed `T`, and memory is lost or an object is damaged. -/
def Bad (T : Nat → Prop) (w w' : World V) : Prop := Step T w w' ∧ ∃ x b, Ruin x b w'

omit [Hollow V] in
theorem Bad.mono {T U : Nat → Prop} {w w' : World V} (h : Bad T w w') (hT : ∀ z, T z → U z) : Bad U w w' :=
  ⟨⟨fun z hz => h.1.vars z fun ht => hz (hT z ht), fun z a c hz => h.1.heap z a c fun ht => hz (hT z ht)⟩, h.2⟩

omit [Hollow V] in
theorem Hurt.bad {T : Nat → Prop} {x b : Nat} {w w' : World V} (h : Hurt T x b w w') : Bad T w w' := ⟨h.step, x, b, h.ruin⟩

theorem newFillAllocX_hit {p : Plan V} (hp : p.who = .constructor) {ty : Types V}
    (hdef : TypesOk ty) {w : World V} (n : Nat) (hI : Inv ty w) {s : Shape} (hs : ShapeOk ty s) (v : V) (al : Nat) :
    Hit (newFillAlloc ty s v al w) (Bad (fun _ => False) w) (newFillAllocX p ty s v al w n) := by
  obtain ⟨w1, a1, e1, hI1, hst1, hnv1, hv1, _, _, hh1, _⟩ := newShapeAlloc_ok hI hdef.shape al
  unfold newFillAllocX newFillAlloc
  refine hit_seq (f0 := newAlloc ty al) ((newShapeAllocX_hit hp n hI hdef.shape al).mono fun _ ⟨b, h⟩ => h.bad) fun w1' n1 e1' => ?_
  have e1' : newShapeAlloc ty ty.defaultShape al w = .ok w1' := e1'
  obtain rfl : w1 = w1' := by rw [e1] at e1'; simpa using e1'
  refine hit_unwinding (assignFillX_hit hp n1 hI1 hv1 hh1 hs v) fun w2 h2 => ?_
  obtain ⟨b, h2, h3⟩ := h2
  exact Or.inl (h2.ruin.delete h3)

theorem newCopyAllocX_hit {p : Plan V} (hp : p.who = .constructor) {ty : Types V}
    (hdef : TypesOk ty) {w : World V} (n : Nat) (hI : Inv ty w) {y : Nat} {o : Arr} (ho : w.vars y = some o) (al : Nat) :
    Hit (newCopyAlloc ty y al w) (Bad (fun _ => False) w) (newCopyAllocX p ty y al w n) := by
  obtain ⟨w1, a1, e1, hI1, hst1, hnv1, hv1, _⟩ := newShapeAlloc_ok hI hdef.shape al
  have hyn : y ≠ w.nextVar := by have := hI.lt ho; omega
  unfold newCopyAllocX newCopyAlloc
  refine hit_seq (f0 := newAlloc ty al) ((newShapeAllocX_hit hp n hI hdef.shape al).mono fun _ ⟨b, h⟩ => h.bad) fun w1' n1 e1' => ?_
  have e1' : newShapeAlloc ty ty.defaultShape al w = .ok w1' := e1'
  obtain rfl : w1 = w1' := by rw [e1] at e1'; simpa using e1'
  refine hit_unwinding (assignArrX_hit true hp n1 hI1 hv1 (y := y) (o := o)
    (by rw [hst1.vars y hyn]; exact ho)) fun w2 h2 => ?_
  obtain ⟨b, h2, h3⟩ := h2
  exact Or.inl (h2.ruin.delete h3)

theorem newCopyX_hit {p : Plan V} (hp : p.who = .constructor) {ty : Types V}
    (hdef : TypesOk ty) {w : World V} (n : Nat) (hI : Inv ty w) {y : Nat} {o : Arr} (ho : w.vars y = some o) :
    Hit (newCopy ty y w) (Bad (fun _ => False) w) (newCopyX p ty y w n) := by
  have hyn : y ≠ w.nextVar := by have := hI.lt ho; omega
  unfold newCopyX newCopy
  dsimp only
  rw [get_ok ho, bind_ok, bind_ok]
  refine (buildX_hit (T := fun _ => False) (body0 := assignArr true ty w.nextVar y) hI _ n
    ((assignArrX_hit true hp n (push_inv hdef hI _) (by rw [push_vars, if_pos rfl])
      (by rw [push_vars, if_neg hyn]; exact ho)).mono fun w' ⟨b, h, h'⟩ => ⟨b, h.mono (by simp), h'⟩)).mono fun _ ⟨b, h⟩ => h.bad

theorem newMoveElementsX_hit {p : Plan V} (hp : p.who = .constructor) {ty : Types V}
    {w : World V} (n : Nat) (hI : Inv ty w) {y : Nat} {o : Arr} (ho : w.vars y = some o) (al : Nat) :
    Hit (setShapeMember w.nextVar o.shape (w.push ⟨⟨al, w.nextVar, false⟩, none, 0, none, ty.defaultShape⟩) >>=
        fun w' => allocate ty w.nextVar w' >>= transfer false ty w.nextVar y)
      (fun w' => ∃ b, Hurt (· = y) w.nextVar b w w') (newMoveElementsX p ty y al w n) := by
  have hyn : y ≠ w.nextVar := by have := hI.lt ho; omega
  have hog := hI.good y o ho
  unfold newMoveElementsX
  rw [get_ok ho, bind_ok, allocateX_lift (by rw [hp]; simp)]
  refine buildX_hit (body0 := fun w' => setShapeMember w.nextVar o.shape w' >>=
    fun w' => allocate ty w.nextVar w' >>= transfer false ty w.nextVar y) hI _ n ?_
  have hv : (w.push ⟨⟨al, w.nextVar, false⟩, none, 0, none, ty.defaultShape⟩).vars w.nextVar =
      some ⟨⟨al, w.nextVar, false⟩, none, 0, none, ty.defaultShape⟩ := by rw [push_vars, if_pos rfl]
  refine hit_seq (f0 := setShapeMember w.nextVar o.shape) (hit_lift _ _ _ n) fun w1 n1 e1 => ?_
  rw [setShapeMember_ok hv] at e1
  simp only [Except.ok.injEq] at e1
  subst e1
  obtain ⟨w2, a2, e2, hsh, h2⟩ := allocate_prep (a := ⟨⟨al, w.nextVar, false⟩, none, 0, none, o.shape⟩) hI
    ((hI.step_push ⟨⟨al, w.nextVar, false⟩, none, 0, none, ty.defaultShape⟩).trans (step_setVar _ _ _))
    ((hI.push ⟨⟨al, w.nextVar, false⟩, none, 0, none, ty.defaultShape⟩).setVar _) (setVar_self _ _ _) ⟨rfl, rfl, rfl⟩ hog.shape
  refine hit_seq (f0 := allocate ty w.nextVar) (hit_lift _ _ _ n1) fun w2' n2 e2' => ?_
  have : w2 = w2' := by
    have e3 := e2.symm.trans e2'
    simpa using e3
  subst this
  have hst : Step (· = w.nextVar) (w.push ⟨⟨al, w.nextVar, false⟩, none, 0, none, ty.defaultShape⟩) w2 :=
    ⟨fun y hy => by rw [h2.step.vars y hy, push_vars, if_neg hy], fun y a c hy h3 h4 =>
      h2.step.heap y a c hy (by rwa [push_vars, if_neg hy] at h3) h4⟩
  refine (transferX_hit false hp ty h2 (by rw [h2.step.vars y hyn]; exact ho) (Ne.symm hyn) ?_ ?_ n2).mono fun w' h' => ?_
  · by_cases hb : o.base = none
    · exact Or.inl hb
    · obtain ⟨c, sblk, hs, hsl⟩ := hog.full hb
      exact Or.inr ⟨c, sblk, ⟨hs.buffer, hs.base, by
        rw [h2.step.heap y o c hyn ho hs.buffer]; exact hs.heap, hs.arena, hs.size, hs.bufferSize, hs.known⟩, hsl⟩
  · by_cases hb : o.base = none
    · exact Or.inr hb
    · obtain ⟨c, sblk, hs, _⟩ := hog.full hb
      left; rw [hsh]; exact resolve_of_known hs.known
  · obtain ⟨b, h3, h4⟩ := h'
    exact ⟨b, (h3.after hst (Or.inl rfl)).mono fun z hz => hz.imp id And.right, h4⟩

theorem newMoveX_hit {p : Plan V} (hp : p.who = .constructor) {ty : Types V}
    {w : World V} (n : Nat) (hI : Inv ty w) {y : Nat} {o : Arr} (ho : w.vars y = some o) :
    Hit (newMove ty y w) (fun w' => ∃ b, Hurt (· = y) w.nextVar b w w') (newMoveX p ty y w n) := by
  unfold newMoveX
  rw [get_ok ho, bind_ok]
  split
  · exact hit_lift _ _ w n
  · rename_i hc
    have e : newMove ty y w = (setShapeMember w.nextVar o.shape
        (w.push ⟨⟨allocatorForMove ty o, w.nextVar, false⟩, none, 0, none, ty.defaultShape⟩) >>=
        fun w' => allocate ty w.nextVar w' >>= transfer false ty w.nextVar y) := by
      unfold newMove
      dsimp only
      rw [get_ok ho, bind_ok, if_neg hc]
      rfl
    rw [e]
    exact newMoveElementsX_hit hp n hI ho _

theorem newMoveAllocX_hit {p : Plan V} (hp : p.who = .constructor) {ty : Types V}
    {w : World V} (n : Nat) (hI : Inv ty w) {y : Nat} {o : Arr} (ho : w.vars y = some o) (al : Nat) :
    Hit (newMoveAlloc ty y al w) (fun w' => ∃ b, Hurt (· = y) w.nextVar b w w') (newMoveAllocX p ty y al w n) := by
  unfold newMoveAllocX
  rw [get_ok ho, bind_ok]
  split
  · exact hit_lift _ _ w n
  · rename_i hc
    have e : newMoveAlloc ty y al w = (setShapeMember w.nextVar o.shape
        (w.push ⟨⟨al, w.nextVar, false⟩, none, 0, none, ty.defaultShape⟩) >>=
        fun w' => allocate ty w.nextVar w' >>= transfer false ty w.nextVar y) := by
      unfold newMoveAlloc
      dsimp only
      rw [get_ok ho, bind_ok, if_neg hc]
      rfl
    rw [e]
    exact newMoveElementsX_hit hp n hI ho _

/-! ### Assignment operators, `clear`, `reshape`, `swap` -/

theorem copyAssignOpX_hit {p : Plan V} (hp : p.who = .constructor) {ty : Types V}
    (hdef : TypesOk ty) {w : World V} {x y : Nat} {a o : Arr} (n : Nat) (hI : Inv ty w) (ha : w.vars x = some a)
    (ho : w.vars y = some o) :
    Hit (copyAssignOp ty x y w) (fun w' => ∃ b, Hurt (· = x) x b w w' ∧ w'.vars x ≠ none) (copyAssignOpX p ty x y w n) := by
  unfold copyAssignOpX
  rw [get_ok ha, bind_ok, get_ok ho, bind_ok]
  by_cases hbb : a.base = o.base
  · rw [if_pos hbb]; exact hit_lift _ _ w n
  rw [if_neg hbb]
  have hyx : y ≠ x := by
    rintro rfl
    rw [ha] at ho
    simp only [Option.some.injEq] at ho
    exact hbb (by rw [ho])
  have e0 : copyAssignOp ty x y w = (beforeAssign ty x o w >>= assignArr true ty x y) := by
    unfold copyAssignOp beforeAssign
    rw [get_ok ha, get_ok ho]
    simp only [bind_ok, if_neg hbb]
    cases ty.propagateCopy
    · rfl
    · simp only [if_true]
      by_cases hal : (!a.alloc.eq o.alloc) = true
      · rw [if_pos hal, if_pos hal]
        simp only [bind_assoc, bind_ok]
        rfl
      · rw [if_neg hal, if_neg hal]
        simp only [bind_ok, get_ok ha]
        rfl
  rw [e0]
  obtain ⟨w1, a1, e1, hI1, hst1, ha1, hnv1⟩ := beforeAssign_ok hI hdef ha ho hyx
  refine hit_seq (f0 := beforeAssign ty x o) (hit_lift _ _ w n) fun w1' n1 e1' => ?_
  rw [e1] at e1'
  simp only [Except.ok.injEq] at e1'
  subst e1'
  refine (assignArrX_hit true hp n1 hI1 ha1 (by rw [hst1.vars y hyx]; exact ho)).mono fun w2 h2 => ?_
  obtain ⟨b, h2, h3⟩ := h2
  exact ⟨b, (h2.mono (U := (· = x)) (by simp)).after hst1 rfl, h3⟩

theorem moveAssignOpX_hit {p : Plan V} (hp : p.who = .constructor) {ty : Types V}
    {w : World V} {x y : Nat} {a o : Arr} (n : Nat) (hI : Inv ty w) (ha : w.vars x = some a)
    (ho : w.vars y = some o) :
    Hit (moveAssignOp ty x y w) (fun w' => ∃ b, Hurt (fun z => z = x ∨ z = y) x b w w' ∧ w'.vars x ≠ none)
      (moveAssignOpX p ty x y w n) := by
  unfold moveAssignOpX
  rw [get_ok ha, bind_ok, get_ok ho, bind_ok]
  split
  · exact hit_lift _ _ w n
  · rename_i h
    simp only [not_or] at h
    have e0 : moveAssignOp ty x y w = assignArr false ty x y w := by
      unfold moveAssignOp
      rw [get_ok ha, get_ok ho]
      simp only [bind_ok]
      rw [if_neg h.1, if_neg h.2.1, if_neg h.2.2]
      rfl
    rw [e0]
    exact (assignArrX_hit false hp n hI ha ho).mono fun w' ⟨b, h, h'⟩ => ⟨b, h.mono (by simp), h'⟩

theorem clearX_hit {p : Plan V} (hp : p.who = .constructor) {ty : Types V}
    (hdef : TypesOk ty) {w : World V} {x : Nat} {a : Arr} (n : Nat) (hI : Inv ty w) (ha : w.vars x = some a) :
    Hit (clear ty x w) (fun w' => ∃ b, Hurt (· = x) x b w w' ∧ w'.vars x ≠ none) (clearX p ty x w n) := by
  unfold clearX clear
  rw [allocateX_lift (by rw [hp]; simp)]
  obtain ⟨w1, a1, e1, _, h1⟩ := realloc_prep hI ha hdef.shape
  refine hit_seq (f0 := deallocate ty x) (hit_lift _ _ w n) fun w2 n2 e2 => ?_
  refine hit_seq (f0 := setShapeMember x ty.defaultShape) (hit_lift _ _ w2 n2) fun w3 n3 e3 => ?_
  refine hit_seq (f0 := allocate ty x) (hit_lift _ _ w3 n3) fun w4 n4 e4 => ?_
  rw [e2, bind_ok, e3, bind_ok, e4] at e1
  simp only [Except.ok.injEq] at e1
  subst e1
  exact (constructX_hit hp ty h1 _ _ n4).mono fun w' h' => by
    obtain ⟨b, h2, h3⟩ := h'
    exact ⟨b, h2.after h1.step rfl, h3⟩

/-- A local variable is destroyed as the exception leaves its scope. -/
theorem Hurt.leave {ty : Types V} {T S : Nat → Prop} {x b m : Nat} {w0 w w' : World V} {a : Arr} (hI : Inv ty w)
    (h : Hurt T x b w w') (hmx : m ≠ x) (ha : w.vars m = some a) (h0 : w0.vars m = none)
    (hst : Step (fun z => S z ∨ z = m) w0 w') :
    ∃ w'', Nda.delete ty m w' = .ok w'' ∧ Bad S w0 w'' := by
  obtain ⟨w'', e, h1, h2, h3⟩ := h.deleteOther hI hmx ha
  exact ⟨w'', e, Step.trim (hst.trans (h1.mono fun z hz => Or.inr hz)) h0 h2, x, b, h3⟩

theorem swapX_hit {p : Plan V} (hp : p.who = .constructor) {ty : Types V}
    (hdef : TypesOk ty) {w : World V} {x y : Nat} {a o : Arr} (n : Nat) (hI : Inv ty w) (ha : w.vars x = some a)
    (ho : w.vars y = some o) (hsa : SrcOk ty a) (hso : SrcOk ty o)
    (hself : x = y → ty.debug = true → ¬ Pos ty.defaultShape) :
    Hit (swap ty x y w) (Bad (fun z => z = x ∨ z = y) w) (swapX p ty x y w n) := by
  unfold swapX
  split
  · exact hit_lift _ _ w n
  rename_i hps
  have e0 : swap ty x y w = (newMove ty y w >>= fun w1 =>
      (moveAssignOp ty y x w1 >>= moveAssignOp ty x w.nextVar) >>= delete ty w.nextVar) := by
    unfold swap
    rw [if_neg hps]
    simp only [bind_assoc]
  rw [e0]
  have hn := hI.lt ha
  have hny := hI.lt ho
  obtain ⟨w1, an, o1, e1, hI1, hst1, hnv1, hal1, hy1, hr1, htake1, hkeep1⟩ :=
    newMove_ok hI hdef ho (fun _ => hso)
  refine hit_seq (f0 := newMove ty y)
    ((newMoveX_hit hp n hI ho).mono fun w' ⟨b, h⟩ => (h.mono fun z hz => Or.inr hz).bad) fun w1' n1 e1' => ?_
  rw [e1] at e1'
  simp only [Except.ok.injEq] at e1'
  subst e1'
  have ho1 : o1.base = none ∧ o1.shape = ty.defaultShape ∨ o1 = o := by
    by_cases ht : TakesNew ty o
    · left; rw [(htake1 ht).2.1]; exact ⟨rfl, rfl⟩
    · right; exact (hkeep1 ht).1
  have hx1 : ∃ a1, w1.vars x = some a1 ∧ (x ≠ y → a1 = a) ∧ (x = y → a1 = o1) := by
    by_cases hxy : x = y
    · exact ⟨o1, by rw [hxy]; exact hy1, fun h => absurd hxy h, fun _ => rfl⟩
    · refine ⟨a, ?_, fun _ => rfl, fun h => absurd h hxy⟩
      rw [hst1.vars x (by rintro (h | h); omega; exact hxy h)]; exact ha
  obtain ⟨a1, hax1, hane, haeq⟩ := hx1
  have hpre2 : MoveOk ty o1 a1 := by
    by_cases hxy : x = y
    · rw [haeq hxy]
      refine ⟨?_, fun h => absurd rfl h⟩
      intro hb _ hd
      rcases ho1 with ⟨_, h⟩ | h
      · rw [h]; exact hself hxy hd
      · rw [h] at hb ⊢; exact (hso hb).1
    · rw [hane hxy]; exact MoveOk.of_src hsa
  obtain ⟨w2, o2, a2, e2, hI2, hst2, hnv2, hx2, hr2, _⟩ := moveAssignOp_ok hI1 hdef hy1 hax1 hpre2
  have hnn : w.nextVar ≠ y ∧ w.nextVar ≠ x := by omega
  have hn2 : w2.vars w.nextVar = some an := by
    rw [hst2.vars _ (by rintro (h | h); exact hnn.1 h; exact hnn.2 h)]; exact hr1.var
  have hst1' : Step (fun z => (z = x ∨ z = y) ∨ z = w.nextVar) w w1 :=
    hst1.mono fun z hz => hz.elim Or.inr fun h => Or.inl (Or.inr h)
  have hst2' : Step (fun z => (z = x ∨ z = y) ∨ z = w.nextVar) w w2 :=
    hst1'.trans (hst2.mono fun z hz => Or.inl hz.symm)
  refine hit_scope (f0 := fun w1 => moveAssignOp ty y x w1 >>= moveAssignOp ty x w.nextVar)
    (Q := fun w' => ∃ T x' b wb, Inv ty wb ∧ Hurt T x' b wb w' ∧ w.nextVar ≠ x' ∧ wb.vars w.nextVar = some an ∧
      Step (fun z => (z = x ∨ z = y) ∨ z = w.nextVar) w w') ?_ ?_
  · refine hit_seq (f0 := moveAssignOp ty y x) ?_ fun w2' n2 e2' => ?_
    · refine (moveAssignOpX_hit hp n1 hI1 hy1 hax1).mono fun w' h => ?_
      obtain ⟨b, h, _⟩ := h
      exact ⟨_, y, b, w1, hI1, h, hnn.1, hr1.var, hst1'.trans (h.step.mono fun z hz => Or.inl hz.symm)⟩
    · rw [e2] at e2'
      simp only [Except.ok.injEq] at e2'
      subst e2'
      refine (moveAssignOpX_hit hp n2 hI2 hx2 hn2).mono fun w' h => ?_
      obtain ⟨b, h, _⟩ := h
      exact ⟨_, x, b, w2, hI2, h, hnn.2, hn2, hst2'.trans (h.step.mono fun z hz => hz.imp Or.inl id)⟩
  · rintro w' ⟨T, x', b, wb, h1, h2, h3, h4, h5⟩
    exact Or.inr (h2.leave h1 h3 h4 (hI.freshVar _ le_rfl) h5)

theorem reshapeX_hit {p : Plan V} (hp : p.who = .constructor) {ty : Types V}
    {w : World V} {x : Nat} {a : Arr} {s : Shape} (n : Nat) (hI : Inv ty w)
    (ha : w.vars x = some a) (hnh : NotHollow a) (hs : ShapeOk ty s) (hpre : ReshapeOk ty a s) :
    Hit (reshape ty x s w) (Bad (· = x) w) (reshapeX p ty x s w n) := by
  have hres : s.resolve.resolve = s.resolve := resolve_of_known (resolve_known s)
  unfold reshapeX
  rw [get_ok ha, bind_ok]
  dsimp only
  by_cases hsame : a.shape = s.resolve
  · rw [if_pos hsame]
    have : reshape ty x s w = .ok w := by
      unfold reshape
      rw [get_ok ha, bind_ok]
      dsimp only
      rw [if_pos hsame]
    rw [this]
    exact hit_lift .ok _ w n
  rw [if_neg hsame]
  have e0 : reshape ty x s w = (newShape ty s.resolve w >>= fun w1 =>
      (w1.get w.nextVar >>= fun new => w1.get x >>= fun a =>
        forEachPair ty a.shape a.base (Shape.clamp s.resolve a.shape)
          (new.base.map fun p => (p.1, p.2 + s.resolve.flatOffset (Shape.clamp s.resolve a.shape).mins))
          (moveAssignAt ty) w1 >>= moveAssignOp ty x w.nextVar) >>= delete ty w.nextVar) := by
    unfold reshape
    rw [get_ok ha, bind_ok]
    dsimp only
    rw [if_neg hsame]
    simp only [bind_assoc]
  rw [e0]
  obtain ⟨w1, an, e1, hI1, hst1, hnv1, hv1, hsh1, hal1, hh1, hval1⟩ :=
    newShapeAlloc_ok hI hs.resolve ty.defaultAlloc
  rw [hres] at hsh1
  have hx := hI.lt ha
  have hxn : x ≠ w.nextVar := by omega
  have ha1 : w1.vars x = some a := by rw [hst1.vars x hxn]; exact ha
  refine hit_seq (f0 := newShape ty s.resolve)
    ((newShapeAllocX_hit hp n hI hs.resolve ty.defaultAlloc).mono fun w' ⟨b, h⟩ => (h.mono (by simp)).bad)
    fun w1' n1 e1' => ?_
  have e1' : newShapeAlloc ty s.resolve ty.defaultAlloc w = .ok w1' := e1'
  rw [e1] at e1'
  simp only [Except.ok.injEq] at e1'
  subst e1'
  obtain ⟨w2, e2, hI2, hst2, hv2, hnv2, hval2, hval2'⟩ := reshape_move (s := s.resolve) hI1 hxn ha1 hv1 hsh1
    (by
      intro hb hd
      apply hpre _ hd
      rcases hb with hb | hb
      · exact Or.inl hb
      · right
        have := hh1 hb
        rw [hsh1, resolve_pos] at this
        exact this) hnh hh1
  refine hit_scope (f0 := fun w1 => w1.get w.nextVar >>= fun new => w1.get x >>= fun a =>
        forEachPair ty a.shape a.base (Shape.clamp s.resolve a.shape)
          (new.base.map fun p => (p.1, p.2 + s.resolve.flatOffset (Shape.clamp s.resolve a.shape).mins))
          (moveAssignAt ty) w1 >>= moveAssignOp ty x w.nextVar)
    (Q := fun w' => ∃ b, Hurt (fun z => z = x ∨ z = w.nextVar) x b w2 w' ∧
      Step (fun z => z = x ∨ z = w.nextVar) w w') ?_ ?_
  · unfold reshapeInto
    rw [get_ok hv1, bind_ok, get_ok ha1, bind_ok, bind_ok, bind_ok]
    dsimp only
    have eF : assignFromX false p ty = fun bs bd q => lift (moveAssignAt ty bs bd q) := by
      funext bs bd q
      rw [assignFromX_lift (by rw [hp]; simp)]
      rfl
    rw [eF, forEachPairX_lift]
    refine hit_seq (f0 := forEachPair ty a.shape a.base (Shape.clamp s.resolve a.shape)
          (an.base.map fun p => (p.1, p.2 + s.resolve.flatOffset (Shape.clamp s.resolve a.shape).mins))
          (moveAssignAt ty)) (hit_lift _ _ w1 n1) fun w2' n2 e2' => ?_
    rw [e2] at e2'
    simp only [Except.ok.injEq] at e2'
    subst e2'
    refine (moveAssignOpX_hit hp n2 hI2 (by rw [hv2]; exact ha1) (by rw [hv2]; exact hv1)).mono fun w' h => ?_
    obtain ⟨b, h, _⟩ := h
    exact ⟨b, h, ((hst1.mono fun z hz => Or.inr hz).trans hst2).trans h.step⟩
  · rintro w' ⟨b, h, h'⟩
    exact Or.inr (h.leave (S := (· = x)) hI2 (Ne.symm hxn) (by rw [hv2]; exact hv1) (hI.freshVar _ le_rfl) h')

/-! ### The other statements -/

theorem assignElementsX_lift {p : Plan V} (hp : p.who = .constructor) (keep : Bool) (ty : Types V) (src : Shape) (sb : Ptr)
    (dst : Shape) (db : Ptr) :
    assignElementsX keep p ty src sb dst db = if dst.empty then lift .ok else lift (assert ty (copyAssert src dst)) ⨟
      lift (forEachPair ty src sb dst db (if keep then copyAssignAt else moveAssignAt ty)) := by
  unfold assignElementsX
  have eF : assignFromX keep p ty = fun bs bd q => lift ((if keep then copyAssignAt else moveAssignAt ty) bs bd q) := by
    funext bs bd q
    rw [assignFromX_lift (by rw [hp]; simp)]
  rw [eF, forEachPairX_lift]

theorem assignElementsX_hit {p : Plan V} (hp : p.who = .constructor) (keep : Bool) (ty : Types V) (src : Shape) (sb : Ptr)
    (dst : Shape) (db : Ptr) (Q : World V → Prop) (w : World V) (n : Nat) :
    Hit (assignElements keep ty src sb dst db w) Q (assignElementsX keep p ty src sb dst db w n) := by
  rw [assignElementsX_lift hp]
  unfold assignElements
  split
  · exact hit_lift .ok _ w n
  · exact hit_seq (f0 := assert ty (copyAssert src dst)) (hit_lift _ _ w n) fun w1 n1 _ => hit_lift _ _ w1 n1

theorem makeFromX_hit {p : Plan V} (hp : p.who = .constructor) (keep : Bool) {ty : Types V}
    {w : World V} {y : Nat} {o : Arr} (src : Shape) (off : Int) {s : Shape} (al n : Nat) (hI : Inv ty w)
    (ho : w.vars y = some o) (hs : ShapeOk ty s) :
    Hit (makeFrom keep ty y src off s al w) (Bad (fun _ => False) w) (makeFromX keep p ty y src off s al w n) := by
  unfold makeFrom makeFromX
  dsimp only
  rw [get_ok ho, bind_ok, bind_ok]
  refine hit_seq (f0 := newShapeAlloc ty s al)
    ((newShapeAllocX_hit hp n hI hs al).mono fun w' ⟨b, h⟩ => h.bad) fun w1 n1 e1 => ?_
  refine hit_unwinding (Q := fun _ => False) ?_ fun _ h => h.elim
  cases hd : w1.get w.nextVar with
  | error f => exact Or.inl rfl
  | ok d => exact assignElementsX_hit hp keep ty src _ _ _ _ w1 n1

theorem assignRefX_hit {p : Plan V} (hp : p.who = .constructor) (keep : Bool) (ty : Types V) (y : Nat) (src : Shape)
    (soff : Int) (x : Nat) (dst : Shape) (doff : Int) (Q : World V → Prop) (w : World V) (n : Nat) :
    Hit (assignRef keep ty y src soff x dst doff w) Q (assignRefX keep p ty y src soff x dst doff w n) := by
  unfold assignRef assignRefX
  cases ho : w.get y with
  | error f => exact Or.inl rfl
  | ok o =>
    cases ha : w.get x with
    | error f => exact Or.inl rfl
    | ok a => exact assignElementsX_hit hp keep ty src _ _ _ _ w n

omit [Hollow V] in
theorem writeX_hit {p : Plan V} (hp : p.who = .constructor) (x : Nat) (i : Index) (v : V) (Q : World V → Prop)
    (w : World V) (n : Nat) : Hit (write x i v w) Q (writeX p x i v w n) := by
  unfold writeX
  simp only [calling_lift (p := p) (t := .assignment) (by rw [hp]; simp)]
  cases ha : w.get x with
  | error f =>
    refine Or.inl ?_
    unfold write
    rw [ha]
    rfl
  | ok a =>
    rw [bind_ok]
    cases hb : a.base with
    | none =>
      refine Or.inl ?_
      unfold write
      rw [ha, bind_ok, hb]
    | some q => exact hit_lift _ _ w n

omit [Hollow V] in
theorem forEachRefX_hit {p : Plan V} (hp : p.who = .constructor) (ty : Types V) (x : Nat) (s : Shape) (off : Int)
    (f : Nat → V → V) (Q : World V → Prop) (w : World V) (n : Nat) :
    Hit (forEachRef ty x s off f w) Q (forEachRefX p ty x s off f w n) := by
  unfold forEachRefX forEachRef
  simp only [calling_lift (p := p) (t := .assignment) (by rw [hp]; simp), each_lift]
  cases ha : w.get x with
  | error f => exact Or.inl rfl
  | ok a =>
    rw [bind_ok, bind_ok]
    cases hb : a.base with
    | none => exact hit_lift (assert ty _) _ w n
    | some q => exact hit_lift (fun w => (s.forEachValue (some (q.2 + off))).zipIdx.foldlM (fun w p => replaceAt q.1 (f p.2) p.1 w) w) _ w n

omit [Hollow V] in
theorem transformRefX_hit {p : Plan V} (hp : p.who = .constructor) (x : Nat) (s : Shape) (off : Int)
    (f : Index → V) (Q : World V → Prop) (w : World V) (n : Nat) :
    Hit (transformRef x s off f w) Q (transformRefX p x s off f w n) := by
  unfold transformRefX transformRef
  simp only [calling_lift (p := p) (t := .assignment) (by rw [hp]; simp)]
  cases ha : w.get x with
  | error f => exact Or.inl rfl
  | ok a =>
    rw [bind_ok, bind_ok]
    cases ht : s.forEachIndex with
    | none => exact Or.inl rfl
    | some tr =>
      dsimp only
      cases hb : a.base with
      | none =>
        dsimp only
        rw [show (fun (_ : Index) (_ : World V) (_ : Nat) => (Except.error Fault.null : Except Fault (Left V))) =
          fun _ => lift fun _ => .error .null from rfl, each_lift]
        exact hit_lift (fun w => tr.foldlM (fun _ _ => Except.error Fault.null) w) _ w n
      | some q =>
        dsimp only
        rw [each_lift]
        exact hit_lift (fun w => tr.foldlM (fun w i => assignAt .moveAssign q.1 (q.2 + off + s.flatOffset i) (f i) w) w) _ w n

theorem execX_hit {p : Plan V} (hp : p.who = .constructor) {ty : Types V} (hdef : TypesOk ty)
    {w : World V} (n : Nat) (hI : Inv ty w) {c : Cmd V} (hc : Allowed ty w c) :
    Hit (exec ty c w) (Bad (Changes w c) w) (execX p ty c w n) := by
  cases c with
  | new => exact (newShapeAllocX_hit hp n hI hdef.shape ty.defaultAlloc).mono fun _ ⟨b, h⟩ => (h.mono (by simp)).bad
  | newAlloc al => exact (newShapeAllocX_hit hp n hI hdef.shape al).mono fun _ ⟨b, h⟩ => (h.mono (by simp)).bad
  | newShape s => exact (newShapeAllocX_hit hp n hI hc ty.defaultAlloc).mono fun _ ⟨b, h⟩ => (h.mono (by simp)).bad
  | newShapeAlloc s al => exact (newShapeAllocX_hit hp n hI hc al).mono fun _ ⟨b, h⟩ => (h.mono (by simp)).bad
  | newFill s v => exact (newFillAllocX_hit hp hdef n hI hc v ty.defaultAlloc).mono fun _ h => h.mono (by simp)
  | newFillAlloc s v al => exact (newFillAllocX_hit hp hdef n hI hc v al).mono fun _ h => h.mono (by simp)
  | newCopy y =>
    obtain ⟨o, ho, _⟩ := with_iff.1 hc
    exact (newCopyX_hit hp hdef n hI ho).mono fun _ h => h.mono (by simp)
  | newCopyAlloc y al =>
    obtain ⟨o, ho, _⟩ := with_iff.1 hc
    exact (newCopyAllocX_hit hp hdef n hI ho al).mono fun _ h => h.mono (by simp)
  | newMove y =>
    obtain ⟨o, ho, _⟩ := with_iff.1 hc
    exact (newMoveX_hit hp n hI ho).mono fun _ ⟨b, h⟩ => (h.mono fun z hz => Or.inr hz).bad
  | newMoveAlloc y al =>
    obtain ⟨o, ho, _⟩ := with_iff.1 hc
    exact (newMoveAllocX_hit hp n hI ho al).mono fun _ ⟨b, h⟩ => (h.mono fun z hz => Or.inr hz).bad
  | delete x => exact hit_lift _ _ w n
  | copyAssign x y =>
    obtain ⟨a, ha, h⟩ := with_iff.1 hc
    obtain ⟨o, ho, _⟩ := with_iff.1 h
    exact (copyAssignOpX_hit hp hdef n hI ha ho).mono fun _ ⟨b, h, _⟩ => h.bad
  | moveAssign x y =>
    obtain ⟨a, ha, h⟩ := with_iff.1 hc
    obtain ⟨o, ho, _⟩ := with_iff.1 h
    exact (moveAssignOpX_hit hp n hI ha ho).mono fun _ ⟨b, h, _⟩ => h.bad
  | assignCopy x y =>
    obtain ⟨a, ha, h⟩ := with_iff.1 hc
    obtain ⟨o, ho, _⟩ := with_iff.1 h
    exact (assignArrX_hit true hp n hI ha ho).mono fun _ ⟨b, h, _⟩ => (h.mono (by simp [Changes])).bad
  | assignMove x y =>
    obtain ⟨a, ha, h⟩ := with_iff.1 hc
    obtain ⟨o, ho, _⟩ := with_iff.1 h
    exact (assignArrX_hit false hp n hI ha ho).mono fun _ ⟨b, h, _⟩ => (h.mono (by simp [Changes])).bad
  | assignFill x s v =>
    obtain ⟨a, ha, hh, hs⟩ := with_iff.1 hc
    exact (assignFillX_hit hp n hI ha hh hs v).mono fun _ ⟨b, h, _⟩ => h.bad
  | clear x =>
    obtain ⟨a, ha, _⟩ := with_iff.1 hc
    exact (clearX_hit hp hdef n hI ha).mono fun _ ⟨b, h, _⟩ => h.bad
  | reshape x s =>
    obtain ⟨a, ha, hn, hs, hr⟩ := with_iff.1 hc
    exact reshapeX_hit hp n hI ha hn hs hr
  | swap x y =>
    obtain ⟨a, ha, h⟩ := with_iff.1 hc
    obtain ⟨o, ho, hs, hs', hself⟩ := with_iff.1 h
    exact swapX_hit hp hdef n hI ha ho hs hs' hself
  | write x i v => exact writeX_hit hp x i v _ w n
  | makeCopy y s al =>
    obtain ⟨o, ho, hv⟩ := with_iff.1 hc
    show Hit (makeFromArray true ty y s al w) _ (makeFromArrayX true p ty y s al w n)
    unfold makeFromArrayX
    rw [makeFromArray_eq ho, get_ok ho, bind_ok]
    exact (makeFromX_hit hp true _ _ al n hI ho hv.shape).mono fun _ h => h.mono (by simp)
  | makeCopyRef y src off s al =>
    obtain ⟨o, ho, hv⟩ := with_iff.1 hc
    exact (makeFromX_hit hp true _ _ al n hI ho hv.shape).mono fun _ h => h.mono (by simp)
  | makeMove y s al =>
    obtain ⟨o, ho, hv⟩ := with_iff.1 hc
    show Hit (makeFromArray false ty y s al w) _ (makeFromArrayX false p ty y s al w n)
    unfold makeFromArrayX
    rw [makeFromArray_eq ho, get_ok ho, bind_ok]
    exact (makeFromX_hit hp false _ _ al n hI ho hv.shape).mono fun _ h => h.mono (by simp)
  | makeMoveRef y src off s al =>
    obtain ⟨o, ho, hv⟩ := with_iff.1 hc
    exact (makeFromX_hit hp false _ _ al n hI ho hv.shape).mono fun _ h => h.mono (by simp)
  | makeMoveRvalue y s al =>
    obtain ⟨o, ho, hs, hv⟩ := with_iff.1 hc
    show Hit (makeMoveRvalue ty y s al w) _ (makeMoveRvalueX p ty y s al w n)
    unfold makeMoveRvalue makeMoveRvalueX
    rw [get_ok ho, bind_ok, bind_ok]
    have hyn : w.nextVar ≠ o.alloc.self := by have := hI.lt ho; rw [hI.self y o ho]; omega
    have hcond : (o.shape = s ∧ Allocator.eq ⟨al, w.nextVar, false⟩ o.alloc = true) ↔
        o.shape = s ∧ SameAlloc o al := by
      rw [Allocator.eq_iff hyn]; simp [SameAlloc]
    by_cases heq : o.shape = s ∧ SameAlloc o al
    · rw [if_pos (hcond.2 heq), if_pos (hcond.2 heq)]
      exact (newCopyX_hit hp hdef n hI ho).mono fun _ h => h.mono (by simp)
    · rw [if_neg fun h => heq (hcond.1 h), if_neg fun h => heq (hcond.1 h)]
      unfold makeFromArrayX
      rw [makeFromArray_eq ho, get_ok ho, bind_ok]
      exact (makeFromX_hit hp false _ _ al n hI ho (hv heq).shape).mono fun _ h => h.mono (by simp)
  | copyRef y src soff x dst doff => exact assignRefX_hit hp true ty y src soff x dst doff _ w n
  | moveRef y src soff x dst doff => exact assignRefX_hit hp false ty y src soff x dst doff _ w n
  | forEach x s off f => exact forEachRefX_hit hp ty x s off f _ w n
  | transform x s off f => exact transformRefX_hit hp x s off f _ w n

end Nda
