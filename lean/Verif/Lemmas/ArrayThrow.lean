import Verif.Spec.ArrayThrow
import Verif.Lemmas.ArrayRun
/-
The effect of operations left by an exception.
-/
namespace Nda
open Spec

variable {V : Type} [Hollow V]

/-- Destroying more elements than are alive. -/
theorem destroy_loop_dead (b : Nat) (tr : List Int) (w : World V) (blk : Block V)
    (h : w.heap b = some blk) (hr : ∀ o ∈ tr, 0 ≤ o ∧ o < blk.size)
    (hl : ∃ o, blk.live o < tr.count o) :
    tr.foldlM (fun w p => destroyAt b p w) w = .error .dead := by
  induction tr generalizing w blk with
  | nil => obtain ⟨o, ho⟩ := hl; simp at ho
  | cons p tr ih =>
    rw [List.foldlM_cons]
    have hp := hr p (by simp)
    by_cases h0 : blk.live p = 0
    · unfold destroyAt
      rw [block_ok h hp.1 hp.2, bind_ok, if_pos h0]; rfl
    · obtain ⟨w1, e1, _, _, h1⟩ := destroyAt_ok h hp.1 hp.2 (by omega)
      rw [e1, bind_ok]
      refine ih w1 _ h1 (fun o ho => hr o (by simp [ho])) ?_
      obtain ⟨o, ho⟩ := hl
      refine ⟨o, ?_⟩
      dsimp only
      by_cases hop : o = p
      · subst hop
        rw [List.count_cons_self] at ho
        rw [if_pos rfl]; omega
      · rw [List.count_cons_of_ne (Ne.symm hop)] at ho
        rw [if_neg hop]; exact ho

/-- The sum of the multiplicities is the length. -/
theorem sum_count (n : Nat) (l : List Int) (h : ∀ o ∈ l, 0 ≤ o ∧ o < n) :
    ((List.range n).map fun p : Nat => l.count (p : Int)).sum = l.length := by
  induction l with
  | nil => simp
  | cons o l ih =>
    have ho := h o (by simp)
    have e : (fun p : Nat => (o :: l).count (p : Int)) =
        fun p : Nat => l.count (p : Int) + (if p = o.toNat then 1 else 0) := by
      funext p
      rw [List.count_cons]
      congr 1
      by_cases hp : p = o.toNat
      · rw [if_pos hp, if_pos]; simp; omega
      · rw [if_neg hp, if_neg]; simp; omega
    rw [e, List.sum_map_add, ih (fun p hp => h p (by simp [hp])), List.length_cons]
    congr 1
    have : ∀ m, o.toNat < m → ((List.range m).map fun p => if p = o.toNat then 1 else 0).sum = 1 := by
      intro m hm
      induction m with
      | zero => omega
      | succ m ihm =>
        rw [List.range_succ, List.map_append, List.sum_append]
        by_cases hc : o.toNat < m
        · rw [ihm hc]; simp; omega
        · have : m = o.toNat := by omega
          have hz : ((List.range m).map fun p => if p = o.toNat then 1 else 0).sum = 0 := by
            rw [List.sum_eq_zero]
            intro x hx
            obtain ⟨q, hq, rfl⟩ := List.mem_map.1 hx
            rw [List.mem_range] at hq
            rw [if_neg (by omega)]
          rw [hz]; simp [this]
    exact this n (by omega)

theorem boxList_size {s : Shape} (hn : NonNeg s) : (boxList s).length = s.size :=
  size_eq_length hn (boxList_enumerates s)

theorem resolve_size {s : Shape} (hn : NonNeg s) : s.resolve.size = s.size := by
  rw [← size_eq_length hn (l := boxList s.resolve), ← boxList_size (resolve_nonNeg.2 hn)]
  exact ⟨(boxList_enumerates _).1, fun i => by rw [(boxList_enumerates s.resolve).2 i]; exact inBox_resolve s i⟩

/-- A beginning of a list is not all of it. -/
theorem take_count_lt {l : List Int} {k : Nat} (hk : k < l.length) :
    ∃ o, (l.take k).count o < l.count o := by
  refine ⟨l[k], ?_⟩
  have : l.count l[k] = (l.take k).count l[k] + (l.drop k).count l[k] := by
    rw [← List.count_append, List.take_append_drop]
  rw [this, List.drop_eq_getElem_cons hk, List.count_cons_self]
  omega

theorem constructThrow_holds (ty : Types V) {w : World V} {x : Nat} {a : Arr} {b : Nat} {blk : Block V}
    (ha : w.vars x = some a) (hh : Holds w a b blk) (hn : NonNeg a.shape) (hl : blk.live = fun _ => 0)
    (c : Call) (v : V) {k : Nat} (hk : k < a.shape.size) :
    ∃ w' blk', constructThrow ty x c v k w = .ok w' ∧ SameBut (· = b) w w' ∧ Holds w' a b blk' ∧
      aliveIn blk' = k ∧ ∃ o, blk'.live o < cnt a.shape o := by
  have hlen : k < (a.shape.forEachValue (some (0 - a.shape.flatMin))).length := by
    rw [(trace_perm hn).length_eq, List.length_map]; rwa [boxList_size hn]
  have hin : ∀ o ∈ (a.shape.forEachValue (some (0 - a.shape.flatMin))).take k, 0 ≤ o ∧ o < blk.size := by
    intro o ho
    obtain ⟨i, hi, rfl⟩ := (trace_mem hn).1 (List.mem_of_mem_take ho)
    rw [hh.size]; exact elem_range hi
  obtain ⟨w', e, s, _, h⟩ := construct_loop b c v
    ((a.shape.forEachValue (some (0 - a.shape.flatMin))).take k) w blk hh.heap hin
  refine ⟨w', _, ?_, s, ⟨hh.buffer, hh.base, h, hh.arena, hh.size, hh.bufferSize, hh.known⟩, ?_, ?_⟩
  · unfold constructThrow
    rw [get_ok ha, bind_ok, assert_ok (by simp [hh.base]), bind_ok, hh.base]
    exact e
  · unfold aliveIn
    simp only [hl, Nat.zero_add]
    rw [sum_count _ _ hin, List.length_take]; omega
  · obtain ⟨o, ho⟩ := take_count_lt hlen
    rw [trace_count hn] at ho
    exact ⟨o, by simpa [hl] using ho⟩

theorem copyConstructThrow_holds (ty : Types V) {w : World V} {x y : Nat} {a o : Arr} {b c : Nat}
    {blk sblk : Block V} (ha : w.vars x = some a) (ho : w.vars y = some o) (hh : Holds w a b blk)
    (hs : Holds w o c sblk) (hbc : c ≠ b) (hsh : a.shape = o.shape) (hn : NonNeg a.shape)
    (hl : blk.live = fun _ => 0) (hsl : sblk.live = cnt o.shape)
    {k : Nat} (hk : k < a.shape.size) :
    ∃ w' blk', copyConstructThrow ty x y k w = .ok w' ∧ SameBut (· = b) w w' ∧ Holds w' a b blk' ∧
      aliveIn blk' = k ∧ ∃ o, blk'.live o < cnt a.shape o := by
  rw [← hsh] at hsl
  generalize hT : copyForEachValue a.shape (some (0 - a.shape.flatMin)) a.shape (some (0 - a.shape.flatMin)) = T
  have hlen : k < (T.map Prod.snd).length := by
    rw [← hT, List.length_map, (pair_trace hn).length_eq, List.length_map]; rwa [boxList_size hn]
  have hmem : ∀ p ∈ T.take k, p.1 = p.2 ∧ ∃ i, InBox a.shape i ∧ 0 - a.shape.flatMin + offsetOf a.shape i = p.2 :=
    fun p hp => (pair_mem hn).1 (by rw [hT]; exact List.mem_of_mem_take hp)
  have hin : ∀ p ∈ T.take k, 0 ≤ p.2 ∧ p.2 < blk.size := by
    intro p hp
    obtain ⟨_, i, hi, h2⟩ := hmem p hp
    rw [hh.size, ← h2]; exact elem_range hi
  obtain ⟨w', val, e, s, _, h, _, _⟩ := copyConstruct_loop hbc (T.take k) w sblk blk hs.heap hh.heap (by
      intro p hp
      obtain ⟨h1, i, hi, h2⟩ := hmem p hp
      rw [hs.size, ← hsh, h1, ← h2]; exact elem_range hi) (by
      intro p hp
      obtain ⟨h1, h2⟩ := hmem p hp
      rw [hsl, h1, cnt_pos_iff]; exact h2) hin
  refine ⟨w', _, ?_, s, ⟨hh.buffer, hh.base, h, hh.arena, hh.size, hh.bufferSize, hh.known⟩, ?_, ?_⟩
  · unfold copyConstructThrow
    rw [get_ok ha, bind_ok, get_ok ho, bind_ok, assert_ok (by simp [hh.base, hsh]), bind_ok, hh.base, hs.base,
      ← hsh]
    show ((copyForEachValue a.shape (some (0 - a.shape.flatMin)) a.shape
      (some (0 - a.shape.flatMin))).take k).foldlM (fun w p => copyConstructAt c b p w) w = _
    rw [hT]
    exact e
  · unfold aliveIn
    simp only [hl, Nat.zero_add]
    rw [sum_count _ _ (by
      intro q hq
      obtain ⟨p, hp, rfl⟩ := List.mem_map.1 hq
      exact hin p hp), List.length_map, List.length_take]
    rw [List.length_map] at hlen
    omega
  · obtain ⟨q, hq⟩ := take_count_lt hlen
    rw [← List.map_take] at hq
    conv at hq => rhs; rw [← hT, pair_snd_count hn]
    exact ⟨q, by simpa [hl] using hq⟩

/-- Destroying an array some elements of which were not constructed. -/
theorem delete_dead (ty : Types V) {w : World V} {x : Nat} {a : Arr} {b : Nat} {blk : Block V}
    (ha : w.vars x = some a) (hh : Holds w a b blk) (hn : NonNeg a.shape)
    (hl : ∃ o, blk.live o < cnt a.shape o) : delete ty x w = .error .dead := by
  have e : destroy ty x w = .error .dead := by
    unfold destroy
    rw [get_ok ha, bind_ok, assert_ok (by simp [hh.base]), bind_ok, hh.base]
    refine destroy_loop_dead b _ w blk hh.heap ?_ ?_
    · intro o ho
      obtain ⟨i, hi, rfl⟩ := (trace_mem hn).1 ho
      rw [hh.size]; exact elem_range hi
    · obtain ⟨o, ho⟩ := hl
      exact ⟨o, by rw [trace_count hn]; exact ho⟩
  unfold delete deallocate
  rw [get_ok ha, bind_ok, if_pos (by simp [hh.base]), e]
  rfl

/-- An array whose elements are about to be constructed. -/
structure Raw (w w' : World V) (x : Nat) (a' : Arr) (b : Nat) (blk : Block V) : Prop where
  var : w'.vars x = some a'
  holds : Holds w' a' b blk
  live : blk.live = fun _ => 0
  step : Step (· = x) w w'
  other : ∀ y a c, y ≠ x → w.vars y = some a → a.buffer = some (c, 0) → c ≠ b
  nextVar : w'.nextVar = w.nextVar

/-- Reusing the memory. -/
theorem raw_destroy {ty : Types V} {w : World V} {x : Nat} {a : Arr} (hI : Inv ty w) (ha : w.vars x = some a)
    (hb : a.base ≠ none) :
    ∃ w' b blk, destroy ty x w = .ok w' ∧ Raw w w' x a b blk := by
  have hg := hI.good x a ha
  obtain ⟨b, blk, hh, hl⟩ := hg.full hb
  obtain ⟨w1, e1, s1, hb1⟩ := destroy_holds ty ha hh hg.shape.nonNeg hl
  have hoth : ∀ y a2 c, y ≠ x → w.vars y = some a2 → a2.buffer = some (c, 0) → c ≠ b := by
    rintro y a2 c hy ha2 hc rfl
    exact hy (hI.disj y x a2 a c 0 0 ha2 ha hc hh.buffer)
  exact ⟨w1, b, _, e1, by rw [s1.vars]; exact ha,
    ⟨hh.buffer, hh.base, hb1, hh.arena, hh.size, hh.bufferSize, hh.known⟩, rfl,
    ⟨fun y _ => by rw [s1.vars], fun y a2 c hy h1 h2 => s1.heap c (hoth y a2 c hy h1 h2)⟩, hoth, s1.nextVar⟩

/-- New memory. -/
theorem raw_allocate {ty : Types V} {w : World V} {x : Nat} {a : Arr} (hI : InvBut ty w x)
    (ha : w.vars x = some a) (hn : a.buffer = none) (hi : a.alloc.allocated = false) (hs : ShapeOk ty a.shape) (hp : Pos a.shape) :
    ∃ w' a' b blk, allocate ty x w = .ok w' ∧ a'.shape = a.shape.resolve ∧ Raw w w' x a' b blk ∧
      b = w.nextBlock := by
  obtain ⟨w1, a1, e1, hv1, hnv, hsh, hal, _, hh1, halt⟩ := allocate_ok ty ha hn hi hs
  have hoth : ∀ y a2 c, y ≠ x → w.vars y = some a2 → a2.buffer = some (c, 0) → c ≠ w.nextBlock := by
    rintro y a2 c hy ha2 hc rfl
    exact ((hI.good y a2 hy ha2).heap_ne hc).1 (hI.fresh _ (Nat.le_refl _))
  rcases halt with ⟨_, hnp, _⟩ | ⟨blk, hh, hl, _⟩
  · exact absurd (by rw [hsh]; exact resolve_pos.2 hp) hnp
  · exact ⟨w1, a1, _, blk, e1, hsh, ⟨by rw [hv1]; simp, hh, hl,
      ⟨fun y hy => by rw [hv1, if_neg hy], fun y a2 c hy h1 h2 => hh1 c (hoth y a2 c hy h1 h2)⟩, hoth, hnv⟩, rfl⟩

theorem Raw.of_step {w0 w w' : World V} {x : Nat} {a' : Arr} {b : Nat} {blk : Block V}
    (h : Raw w w' x a' b blk) (hs : Step (· = x) w0 w) (hn : w.nextVar = w0.nextVar) :
    Raw w0 w' x a' b blk :=
  ⟨h.var, h.holds, h.live, hs.trans h.step,
    fun y a c hy ha hc => h.other y a c hy (by rw [hs.vars y hy]; exact ha) hc, h.nextVar.trans hn⟩

/-- `deallocate(); shape_ = s; allocate();`. -/
theorem raw_new {ty : Types V} {w : World V} {x : Nat} {a : Arr} (hI : Inv ty w) (ha : w.vars x = some a)
    {s : Shape} (hs : ShapeOk ty s) (hp : Pos s) :
    ∃ w' a' b blk, (deallocate ty x w >>= fun w => setShapeMember x s w >>= fun w => allocate ty x w) = .ok w' ∧
      a'.shape = s.resolve ∧ Raw w w' x a' b blk := by
  obtain ⟨w1, a1, e1, hI1, hv1, hn1, hal1, _, hnv1, hst1⟩ := deallocate_ok ty hI ha
  have ha1 : w1.vars x = some a1 := by rw [hv1]; simp
  obtain ⟨w', a', b, blk, e, h1, h2, _⟩ := raw_allocate
    (w := w1.setVar x (some { a1 with shape := s })) (x := x)
    (hI1.of_vars (fun y hy => by rw [setVar_vars, if_neg hy]) rfl rfl (fun _ _ h => h))
    (setVar_self _ _ _) hn1.buffer hn1.idle hs hp
  refine ⟨w', a', b, blk, ?_, h1, h2.of_step (hst1.trans (step_setVar _ _ _)) hnv1⟩
  rw [e1, bind_ok, setShapeMember_ok ha1, bind_ok, e]

/-- An array with elements left unconstructed by an exception. -/
structure Torn (ty : Types V) (w w' : World V) (x : Nat) (s : Shape) (k : Nat) (b : Nat) (blk : Block V) : Prop where
  var : ∃ a, w'.vars x = some a ∧ a.shape = s ∧ Holds w' a b blk
  alive : aliveIn blk = k
  dead : ∃ o, blk.live o < cnt s o
  step : Step (· = x) w w'
  other : ∀ y a, y ≠ x → w'.vars y = some a → a.buffer ≠ some (b, 0)
  nextVar : w'.nextVar = w.nextVar

theorem Raw.torn {ty : Types V} {w w1 w' : World V} {x : Nat} {a' : Arr} {b k : Nat} {blk blk' : Block V}
    (h : Raw w w1 x a' b blk) (hs : SameBut (· = b) w1 w') (hh : Holds w' a' b blk') (ha : aliveIn blk' = k)
    (hd : ∃ o, blk'.live o < cnt a'.shape o) : Torn ty w w' x a'.shape k b blk' := by
  refine ⟨⟨a', by rw [hs.vars]; exact h.var, rfl, hh⟩, ha, hd, ⟨?_, ?_⟩, ?_, hs.nextVar.trans h.nextVar⟩
  · intro y hy; rw [hs.vars, h.step.vars y hy]
  · intro y a c hy h1 h2
    rw [hs.heap c (h.other y a c hy h1 h2), h.step.heap y a c hy h1 h2]
  · intro y a hy h1 h2
    rw [hs.vars, h.step.vars y hy] at h1
    exact h.other y a b hy h1 h2 rfl

theorem Torn.delete {ty : Types V} {w w' : World V} {x k b : Nat} {s : Shape} {blk : Block V}
    (h : Torn ty w w' x s k b blk) (hn : NonNeg s) : delete ty x w' = .error .dead := by
  obtain ⟨a, h1, h2, h3⟩ := h.var
  refine delete_dead ty h1 h3 (by rwa [h2]) ?_
  rw [h2]; exact h.dead

/-- What `assign(shape, value)` has done when it constructs the elements. -/
theorem assignFill_raw {ty : Types V} {w : World V} {x : Nat} {a : Arr} (hI : Inv ty w)
    (ha : w.vars x = some a) (hh : NotHollow a) {s : Shape} (hs : ShapeOk ty s) (hp : Pos s) :
    ∃ w1 a1 b blk, (if a.shape = s.resolve then destroy ty x w
      else deallocate ty x w >>= fun w => setShapeMember x s.resolve w >>= fun w => allocate ty x w) = .ok w1 ∧
      a1.shape = s.resolve ∧ Raw w w1 x a1 b blk := by
  by_cases hss : a.shape = s.resolve
  · rw [if_pos hss]
    obtain ⟨w1, b, blk, e, h⟩ := raw_destroy hI ha (fun hb => hh hb (by rw [hss]; exact resolve_pos.2 hp))
    exact ⟨w1, a, b, blk, e, hss, h⟩
  · rw [if_neg hss]
    obtain ⟨w1, a1, b, blk, e, h1, h2⟩ := raw_new hI ha hs.resolve (resolve_pos.2 hp)
    exact ⟨w1, a1, b, blk, e, by rw [h1]; exact resolve_of_known (resolve_known s), h2⟩

/-- What `assign(const array&)` has done when it constructs the elements. -/
theorem assignCopy_raw {ty : Types V} {w : World V} {x : Nat} {a o : Arr} (hI : Inv ty w)
    (ha : w.vars x = some a) (hs : ShapeOk ty o.shape) (hr : o.shape.resolve = o.shape) (hp : Pos o.shape) :
    ∃ w1 a1 b blk, (if a.base.isSome && decide (a.shape = o.shape) then destroy ty x w
      else deallocate ty x w >>= fun w => setShapeMember x o.shape w >>= fun w => allocate ty x w) = .ok w1 ∧
      a1.shape = o.shape ∧ Raw w w1 x a1 b blk := by
  by_cases hss : a.base ≠ none ∧ a.shape = o.shape
  · rw [if_pos (by simp [Option.isSome_iff_ne_none, hss.1, hss.2])]
    obtain ⟨w1, b, blk, e, h⟩ := raw_destroy hI ha hss.1
    exact ⟨w1, a, b, blk, e, hss.2, h⟩
  · rw [if_neg (by simp only [Bool.and_eq_true, Option.isSome_iff_ne_none, decide_eq_true_eq]; exact hss)]
    obtain ⟨w1, a1, b, blk, e, h1, h2⟩ := raw_new hI ha hs hp
    exact ⟨w1, a1, b, blk, e, by rw [h1, hr], h2⟩

theorem assignFillThrow_torn {ty : Types V} {w : World V} {x : Nat} {a : Arr} (hI : Inv ty w)
    (ha : w.vars x = some a) (hh : NotHollow a) {s : Shape} (hs : ShapeOk ty s) (v : V) {k : Nat}
    (hk : k < s.size) :
    ∃ w' b blk, assignFillThrow ty x s v k w = .ok w' ∧ Torn ty w w' x s.resolve k b blk := by
  have hp : Pos s := (size_pos_iff hs.nonNeg).1 (by omega)
  have hkr : k < s.resolve.size := by rw [resolve_size hs.nonNeg]; exact hk
  obtain ⟨w1, a1, b, blk, e1, h1, hr⟩ := assignFill_raw hI ha hh hs hp
  obtain ⟨w2, blk', e2, s2, hh2, ha2, hd2⟩ := constructThrow_holds ty hr.var hr.holds
    (by rw [h1]; exact hs.resolve.nonNeg) hr.live .copyConstruct v (k := k) (by rw [h1]; exact hkr)
  refine ⟨w2, b, blk', ?_, h1 ▸ hr.torn s2 hh2 ha2 hd2⟩
  have e0 : assignFillThrow ty x s v k w = ((if a.shape = s.resolve then destroy ty x w
      else deallocate ty x w >>= fun w => setShapeMember x s.resolve w >>= fun w => allocate ty x w) >>=
      constructThrow ty x .copyConstruct v k) := by
    unfold assignFillThrow
    rw [get_ok ha, bind_ok]
    dsimp only
    split <;> simp only [bind_assoc]
  rw [e0, e1, bind_ok, e2]

theorem assignCopyThrow_torn {ty : Types V} {w : World V} {x y : Nat} {a o : Arr} (hI : Inv ty w)
    (ha : w.vars x = some a) (ho : w.vars y = some o) (hxy : x ≠ y) (hob : o.base ≠ none) {k : Nat}
    (hk : k < o.shape.size) :
    ∃ w' b blk, assignCopyThrow ty x y k w = .ok w' ∧ Torn ty w w' x o.shape k b blk := by
  have hog := hI.good y o ho
  have hp : Pos o.shape := (size_pos_iff hog.shape.nonNeg).1 (by omega)
  obtain ⟨c, sblk, hs, hsl⟩ := hog.full hob
  have hres : o.shape.resolve = o.shape := resolve_of_known hs.known
  obtain ⟨w1, a1, b, blk, e1, h1, hr⟩ := assignCopy_raw hI ha hog.shape hres hp
  have hcb := hr.other y o c (Ne.symm hxy) ho hs.buffer
  have hs1 : Holds w1 o c sblk := ⟨hs.buffer, hs.base, by
    rw [hr.step.heap y o c (Ne.symm hxy) ho hs.buffer]; exact hs.heap, hs.arena, hs.size, hs.bufferSize, hs.known⟩
  obtain ⟨w2, blk', e2, s2, hh2, ha2, hd2⟩ := copyConstructThrow_holds ty hr.var
    (by rw [hr.step.vars y (Ne.symm hxy)]; exact ho) hr.holds hs1 hcb h1
    (by rw [h1]; exact hog.shape.nonNeg) hr.live hsl (k := k) (by rw [h1]; exact hk)
  refine ⟨w2, b, blk', ?_, h1 ▸ hr.torn s2 hh2 ha2 hd2⟩
  have e0 : assignCopyThrow ty x y k w = ((if a.base.isSome && decide (a.shape = o.shape) then destroy ty x w
      else deallocate ty x w >>= fun w => setShapeMember x o.shape w >>= fun w => allocate ty x w) >>=
      copyConstructThrow ty x y k) := by
    unfold assignCopyThrow
    rw [get_ok ha, bind_ok, get_ok ho, bind_ok, if_neg]
    · split <;> simp only [bind_assoc]
    · intro hb
      exact hxy (hI.base_inj ha ho hb (by rw [hb]; exact hob))
  rw [e0, e1, bind_ok, e2]

/-! ### Constructors -/

theorem newShapeAllocThrow_torn {ty : Types V} {w : World V} (hI : Inv ty w) {s : Shape} (hs : ShapeOk ty s)
    (al : Nat) {k : Nat} (hk : k < s.size) :
    ∃ w1 w' b blk, newShapeAllocThrow ty s al k w = .ok w' ∧ w' = w1.setVar w.nextVar none ∧
      Torn ty (w.push ⟨⟨al, w.nextVar, false⟩, none, 0, none, s⟩) w1 w.nextVar s.resolve k b blk := by
  have hp : Pos s := (size_pos_iff hs.nonNeg).1 (by omega)
  obtain ⟨w1, a1, b, blk, e1, h1, hr, _⟩ := raw_allocate (a := ⟨⟨al, w.nextVar, false⟩, none, 0, none, s⟩)
    (hI.push ⟨⟨al, w.nextVar, false⟩, none, 0, none, s⟩) (by simp [push_vars]) rfl rfl hs hp
  obtain ⟨w2, blk', e2, s2, hh2, ha2, hd2⟩ := constructThrow_holds ty hr.var hr.holds
    (by rw [h1]; exact hs.resolve.nonNeg) hr.live .defaultConstruct ty.defaultValue (k := k)
    (by rw [h1]; show k < s.resolve.size; rw [resolve_size hs.nonNeg]; exact hk)
  refine ⟨w2, _, b, blk', ?_, rfl, h1 ▸ hr.torn s2 hh2 ha2 hd2⟩
  unfold newShapeAllocThrow
  dsimp only
  rw [e1, bind_ok, e2, bind_ok]

/-- `assign` to a new object without memory. -/
theorem newCopyThrow_torn {ty : Types V} {w : World V} (hI : Inv ty w) (hdef : TypesOk ty)
    {y : Nat} {o : Arr} (ho : w.vars y = some o) (hob : o.base ≠ none) {k : Nat} (hk : k < o.shape.size) :
    ∃ w1 w' b blk, newCopyThrow ty y k w = .ok w' ∧ w' = w1.setVar w.nextVar none ∧
      Torn ty (w.push ⟨⟨ty.selectOnCopy o.alloc.arena, w.nextVar, false⟩, none, 0, none, ty.defaultShape⟩) w1 w.nextVar o.shape k b blk := by
  have hyn : y ≠ w.nextVar := by have := hI.lt ho; omega
  have hI0 : Inv ty (w.push ⟨⟨ty.selectOnCopy o.alloc.arena, w.nextVar, false⟩, none, 0, none, ty.defaultShape⟩) :=
    (hI.push _).close (a := ⟨⟨ty.selectOnCopy o.alloc.arena, w.nextVar, false⟩, none, 0, none, ty.defaultShape⟩) (by simp [push_vars])
      rfl (Nat.lt_succ_self _) ⟨rfl, rfl, rfl⟩ hdef.shape (Or.inl rfl)
  obtain ⟨w1, b, blk, e, h⟩ := assignCopyThrow_torn hI0 (x := w.nextVar) (y := y)
    (a := ⟨⟨ty.selectOnCopy o.alloc.arena, w.nextVar, false⟩, none, 0, none, ty.defaultShape⟩) (by simp [push_vars]) (by rw [push_vars, if_neg hyn]; exact ho) (Ne.symm hyn) hob hk
  refine ⟨w1, _, b, blk, ?_, rfl, h⟩
  unfold newCopyThrow
  rw [get_ok ho, bind_ok]
  dsimp only
  rw [e, bind_ok]

/-! ### No memory -/

/-- `deallocate(); shape_ = s; allocate();` when there is no memory. -/
theorem noMem_ok {ty : Types V} {w : World V} {x : Nat} {a : Arr} (hI : Inv ty w) (ha : w.vars x = some a)
    {s : Shape} (hp : Pos s) :
    ∃ w1 w' a', (deallocate ty x w >>= fun w => setShapeMember x s w >>= fun w => allocateThrow ty x w) = .ok w' ∧
      InvBut ty w1 x ∧ w' = w1.setVar x (some a') ∧ IsNull a' ∧ a'.shape = s.resolve ∧
      a'.alloc = a.alloc.idle ∧
      Step (· = x) w w' ∧ w'.nextVar = w.nextVar := by
  obtain ⟨w1, a1, e1, hI1, hv1, hn1, hal1, _, hnv1, hst1⟩ := deallocate_ok ty hI ha
  have ha1 : w1.vars x = some a1 := by rw [hv1]; simp
  refine ⟨w1, _, { a1 with shape := s.resolve, bufferSize := s.resolve.flatExtent }, ?_, hI1, rfl,
    ⟨hn1.buffer, hn1.base, hn1.idle⟩, rfl, hal1, hst1.trans (step_setVar _ _ _), hnv1⟩
  rw [e1, bind_ok, setShapeMember_ok ha1, bind_ok]
  unfold allocateThrow
  rw [get_ok (setVar_self _ _ _), bind_ok, assert_ok (by simp [hn1.buffer]), bind_ok]
  dsimp only
  rw [if_pos (flatExtent_pos (resolve_pos.2 hp))]
  congr 1
  unfold World.setVar
  congr 1
  funext z
  dsimp only
  split <;> rfl

end Nda
