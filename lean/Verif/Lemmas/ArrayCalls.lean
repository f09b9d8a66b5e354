import Verif.Spec.ArrayCalls
import Verif.Lemmas.Reinterpret
import Verif.Lemmas.ArrayThrow
/-
The calls of element functions of successful statements.
-/
namespace Nda
open Spec

variable {V : Type}

/-! ### Sizes -/

theorem boxList_volume (s : Shape) : (boxList s).length = volume s := boxList_length s

theorem volume_zero {s : Shape} (h : ¬ Pos s) : volume s = 0 := by
  rw [← boxList_volume, boxList_nil h, List.length_nil]

theorem volume_congr {s t : Shape} (h : ∀ i, InBox s i ↔ InBox t i) : volume s = volume t := by
  rw [← boxList_volume, ← boxList_volume]
  exact ((boxList_enumerates s).perm ⟨(boxList_enumerates t).1, fun i => by
    rw [(boxList_enumerates t).2 i, h i]⟩).length_eq

theorem volume_resolve (s : Shape) : volume s.resolve = volume s := volume_congr fun i => inBox_resolve s i

theorem volume_clamp {s t : Shape} (hl : List.length s = List.length t) :
    volume (Shape.clamp s t) = common s t := by
  unfold volume common Shape.clamp
  rw [List.map_zipWith]
  congr 2
  funext d e
  simp only [SDim.clampVal, imax, imin, Dim.max]
  congr 1
  by_cases h1 : e.min + e.extent - 1 < d.min + d.extent - 1 <;> by_cases h2 : d.min < e.min <;>
    simp only [h1, h2, if_true, if_false] <;> omega

theorem common_resolve (s t : Shape) : common s.resolve t = common s t := by
  unfold common
  have h : ∀ f : Dim → Dim → Nat, (∀ d d' e, d.min = d'.min → d.extent = d'.extent → f d e = f d' e) →
      ∀ (s s' t : List Dim), s.map (fun d => (d.min, d.extent)) = s'.map (fun d => (d.min, d.extent)) →
      List.zipWith f s t = List.zipWith f s' t := by
    intro f hf s
    induction s with
    | nil => intro s' t h; cases s' with
      | nil => rfl
      | cons => simp at h
    | cons d s ih => intro s' t h; cases s' with
      | nil => simp at h
      | cons d' s' =>
        simp only [List.map_cons, List.cons.injEq, Prod.mk.injEq] at h
        cases t with
        | nil => rfl
        | cons e t => rw [List.zipWith_cons_cons, List.zipWith_cons_cons, hf d d' e h.1.1 h.1.2, ih s' t h.2]
  rw [h _ (fun d d' e h1 h2 => by rw [h1, h2]) _ s t]
  have hr : ∀ (todo done : List Dim), (resolveLoop done todo).map (fun d => (d.min, d.extent)) =
      (done ++ todo).map (fun d => (d.min, d.extent)) := by
    intro todo
    induction todo with
    | nil => intro done; rw [resolveLoop, List.append_nil]
    | cons d0 ds ih =>
      intro done
      rw [resolveLoop, ih]
      split <;> simp
  exact hr s []

theorem owned_null {a : Arr} (h : a.base = none) : owned a = 0 := by rw [owned, if_pos h]

theorem owned_some {a : Arr} (h : a.base ≠ none) : owned a = volume a.shape := by rw [owned, if_neg h]

theorem owned_eq {a : Arr} (h : NotHollow a) : owned a = volume a.shape := by
  by_cases hb : a.base = none
  · rw [owned_null hb, volume_zero (h hb)]
  · exact owned_some hb

theorem times_zero (c : Call) : times 0 c = [] := rfl

/-! ### Elements -/

/-- The calls of a function that does not change objects. -/
structure Logged (w w' : World V) (l : List Call) : Prop where
  calls : w'.calls = w.calls ++ l
  vars : w'.vars = w.vars
  nextVar : w'.nextVar = w.nextVar

theorem Logged.refl (w : World V) : Logged w w [] := ⟨by simp, rfl, rfl⟩

theorem Logged.trans {w w1 w2 : World V} {l1 l2 : List Call} (h1 : Logged w w1 l1) (h2 : Logged w1 w2 l2) :
    Logged w w2 (l1 ++ l2) :=
  ⟨by rw [h2.calls, h1.calls, List.append_assoc], by rw [h2.vars, h1.vars], by rw [h2.nextVar, h1.nextVar]⟩

theorem logged_assert {ty : Types V} {b : Bool} {w w' : World V} (h : assert ty b w = .ok w') : Logged w w' [] := by
  obtain ⟨_, rfl⟩ := ok_of_assert h; exact Logged.refl _

theorem logged_constructAt {k : Call} {b : Nat} {o : Int} {v : V} {w w' : World V}
    (h : constructAt k b o v w = .ok w') : Logged w w' [k] := by
  replace h := ok_of_bind h
  obtain ⟨blk, _, h⟩ := h
  simp only [Except.ok.injEq] at h
  subst h
  exact ⟨rfl, rfl, rfl⟩

theorem logged_destroyAt {b : Nat} {o : Int} {w w' : World V}
    (h : destroyAt b o w = .ok w') : Logged w w' [.destroy] := by
  replace h := ok_of_bind h
  obtain ⟨blk, _, h⟩ := h
  split at h
  · simp at h
  · simp only [Except.ok.injEq] at h
    subst h
    exact ⟨rfl, rfl, rfl⟩

theorem logged_assignAt {k : Call} {b : Nat} {o : Int} {v : V} {w w' : World V}
    (h : assignAt k b o v w = .ok w') : Logged w w' [k] := by
  replace h := ok_of_bind h
  obtain ⟨blk, _, h⟩ := h
  split at h
  · simp at h
  · simp only [Except.ok.injEq] at h
    subst h
    exact ⟨rfl, rfl, rfl⟩

theorem logged_movedFromAt {ty : Types V} {b : Nat} {o : Int} {w w' : World V}
    (h : movedFromAt ty b o w = .ok w') : Logged w w' [] := by
  replace h := ok_of_bind h
  obtain ⟨blk, _, h⟩ := h
  simp only [Except.ok.injEq] at h
  subst h
  exact ⟨by simp [World.setBlock], rfl, rfl⟩

theorem logged_copyConstructAt {bs bd : Nat} {p : Int × Int} {w w' : World V}
    (h : copyConstructAt bs bd p w = .ok w') : Logged w w' [.copyConstruct] := by
  replace h := ok_of_bind h
  obtain ⟨v, _, h⟩ := h
  exact logged_constructAt h

theorem logged_moveConstructAt {ty : Types V} {bs bd : Nat} {p : Int × Int} {w w' : World V}
    (h : moveConstructAt ty bs bd p w = .ok w') : Logged w w' [.moveConstruct] := by
  replace h := ok_of_bind h
  obtain ⟨v, _, h⟩ := h
  replace h := ok_of_bind h
  obtain ⟨w1, h1, h⟩ := h
  exact (logged_movedFromAt h1).trans (logged_constructAt h)

theorem logged_moveAssignAt {ty : Types V} {bs bd : Nat} {p : Int × Int} {w w' : World V}
    (h : moveAssignAt ty bs bd p w = .ok w') : Logged w w' [.moveAssign] := by
  replace h := ok_of_bind h
  obtain ⟨v, _, h⟩ := h
  replace h := ok_of_bind h
  obtain ⟨w1, h1, h⟩ := h
  exact (logged_movedFromAt h1).trans (logged_assignAt h)

theorem logged_copyAssignAt {bs bd : Nat} {p : Int × Int} {w w' : World V}
    (h : copyAssignAt bs bd p w = .ok w') : Logged w w' [.copyAssign] := by
  replace h := ok_of_bind h
  obtain ⟨v, _, h⟩ := h
  exact logged_assignAt h

theorem logged_replaceAt {b : Nat} {f : V → V} {o : Int} {w w' : World V}
    (h : replaceAt b f o w = .ok w') : Logged w w' [.copyAssign] := by
  replace h := ok_of_bind h
  obtain ⟨v, _, h⟩ := h
  exact logged_assignAt h

theorem logged_foldlM {α : Type} {k : Call} {f : World V → α → Except Fault (World V)}
    (hf : ∀ w w' p, f w p = .ok w' → Logged w w' [k]) (l : List α) {w w' : World V}
    (h : l.foldlM f w = .ok w') : Logged w w' (times l.length k) := by
  induction l generalizing w with
  | nil =>
    simp only [List.foldlM_nil, pure, Except.pure, Except.ok.injEq] at h
    subst h; exact Logged.refl _
  | cons a l ih =>
    rw [List.foldlM_cons] at h
    obtain ⟨w1, h1, h2⟩ := ok_of_bind h
    exact (hf _ _ _ h1).trans (ih h2)

/-! ### Private members -/

theorem get_some {w : World V} {x : Nat} {a : Arr} (h : w.get x = .ok a) : w.vars x = some a := by
  unfold World.get at h
  split at h
  · simp only [Except.ok.injEq] at h; rw [← h]; assumption
  · simp at h

theorem logged_construct {ty : Types V} {x : Nat} {k : Call} {v : V} {w w' : World V} {a : Arr}
    (ha : w.vars x = some a) (hn : NonNeg a.shape) (h : construct ty x k v w = .ok w') :
    Logged w w' (times (owned a) k) := by
  unfold construct at h
  rw [get_ok ha, bind_ok] at h
  replace h := ok_of_bind h
  obtain ⟨w1, h1, h⟩ := h
  obtain ⟨_, rfl⟩ := ok_of_assert h1
  cases hb : a.base with
  | none =>
    rw [hb] at h
    rw [owned_null hb]
    exact logged_assert h
  | some p =>
    obtain ⟨b, o⟩ := p
    rw [hb] at h
    rw [owned_some (by simp [hb]), ← boxList_volume]
    have := logged_foldlM (fun w w' p h => logged_constructAt h) _ h
    rwa [(forEachValue_perm _ hn _).length_eq, List.length_map] at this

theorem logged_destroy {ty : Types V} {x : Nat} {w w' : World V} {a : Arr}
    (ha : w.vars x = some a) (hn : NonNeg a.shape) (h : destroy ty x w = .ok w') :
    Logged w w' (times (owned a) .destroy) := by
  unfold destroy at h
  rw [get_ok ha, bind_ok] at h
  replace h := ok_of_bind h
  obtain ⟨w1, h1, h⟩ := h
  obtain ⟨_, rfl⟩ := ok_of_assert h1
  cases hb : a.base with
  | none =>
    rw [hb] at h
    rw [owned_null hb]
    exact logged_assert h
  | some p =>
    obtain ⟨b, o⟩ := p
    rw [hb] at h
    rw [owned_some (by simp [hb]), ← boxList_volume]
    have := logged_foldlM (fun w w' p h => logged_destroyAt h) _ h
    rwa [(forEachValue_perm _ hn _).length_eq, List.length_map] at this

theorem logged_forEachPair {ty : Types V} {src dst : Shape} {p q : Ptr} {k : Call}
    {f : Nat → Nat → Int × Int → World V → Except Fault (World V)}
    (hf : ∀ bs bd p w w', f bs bd p w = .ok w' → Logged w w' [k])
    (hl : List.length src = List.length dst) (hs : NonNeg src) {w w' : World V}
    (h : forEachPair ty src p dst q f w = .ok w') :
    Logged w w' (times (if p = none ∨ q = none then 0 else volume dst) k) := by
  unfold forEachPair at h
  match p, q with
  | some (bs, os), some (bd, od) =>
    have := logged_foldlM (fun w w' p h => hf _ _ _ _ _ h) _ h
    rw [if_neg (by simp), ← boxList_volume]
    rwa [(copyForEachValue_perm' hl hs _ _).length_eq, List.length_map] at this
  | none, _ => rw [if_pos (Or.inl rfl)]; exact logged_assert h
  | some _, none => rw [if_pos (Or.inr rfl)]; exact logged_assert h

theorem logged_copyConstruct {ty : Types V} {x y : Nat} {w w' : World V} {a o : Arr}
    (ha : w.vars x = some a) (ho : w.vars y = some o) (hl : List.length o.shape = List.length a.shape)
    (hn : NonNeg o.shape) (h : copyConstruct ty x y w = .ok w') :
    Logged w w' (times (if o.base = none then 0 else owned a) .copyConstruct) := by
  unfold copyConstruct at h
  rw [get_ok ha, bind_ok, get_ok ho, bind_ok] at h
  replace h := ok_of_bind h
  obtain ⟨w1, h1, h⟩ := h
  obtain ⟨_, rfl⟩ := ok_of_assert h1
  have := logged_forEachPair (fun _ _ _ _ _ h => logged_copyConstructAt h) hl hn h
  convert this using 2
  unfold owned
  by_cases h1 : o.base = none <;> by_cases h2 : a.base = none <;> simp [h1, h2]

theorem logged_moveConstruct {ty : Types V} {x y : Nat} {w w' : World V} {a o : Arr}
    (ha : w.vars x = some a) (ho : w.vars y = some o) (hl : List.length o.shape = List.length a.shape)
    (hn : NonNeg o.shape) (h : moveConstruct ty x y w = .ok w') :
    Logged w w' (times (if o.base = none then 0 else owned a) .moveConstruct) := by
  unfold moveConstruct at h
  rw [get_ok ha, bind_ok, get_ok ho, bind_ok] at h
  replace h := ok_of_bind h
  obtain ⟨w1, h1, h⟩ := h
  obtain ⟨_, rfl⟩ := ok_of_assert h1
  have := logged_forEachPair (fun _ _ _ _ _ h => logged_moveConstructAt h) hl hn h
  convert this using 2
  unfold owned
  by_cases h1 : o.base = none <;> by_cases h2 : a.base = none <;> simp [h1, h2]

theorem logged_free {w w' : World V} {b : Nat} {blk : Block V} (h : w.free b blk = .ok w') : Logged w w' [] := by
  unfold World.free at h
  split at h
  · simp only [Except.ok.injEq] at h
    subst h; exact ⟨by simp [World.setBlock], rfl, rfl⟩
  · simp at h

theorem logged_release {ty : Types V} {al al' : Allocator} {p : Ptr} {n : Nat} {w w' : World V}
    (h : release ty al p n w = .ok (w', al')) : Logged w w' [] ∧ al'.arena = al.arena := by
  unfold release at h
  split at h
  · simp at h
  · split at h
    · simp at h
    · split at h
      · replace h := ok_of_bind h
        obtain ⟨w1, h1, h⟩ := h
        replace h := ok_of_bind h
        obtain ⟨w2, h2, h⟩ := h
        simp only [Except.ok.injEq, Prod.mk.injEq] at h
        obtain ⟨rfl, rfl⟩ := h
        exact ⟨(logged_assert h1).trans (logged_free h2), rfl⟩
      · split at h
        · simp at h
        · replace h := ok_of_bind h
          obtain ⟨w2, h2, h⟩ := h
          simp only [Except.ok.injEq, Prod.mk.injEq] at h
          obtain ⟨rfl, rfl⟩ := h
          exact ⟨logged_free h2, rfl⟩

/-- The calls of a function that gives object `x` the members `a'`. -/
structure LoggedVar (w w' : World V) (x : Nat) (a' : Option Arr) (l : List Call) : Prop where
  calls : w'.calls = w.calls ++ l
  vars : ∀ y, w'.vars y = if y = x then a' else w.vars y
  nextVar : w'.nextVar = w.nextVar

theorem LoggedVar.self {w w' : World V} {x : Nat} {a' : Option Arr} {l : List Call} (h : LoggedVar w w' x a' l) :
    w'.vars x = a' := by rw [h.vars, if_pos rfl]

theorem LoggedVar.other {w w' : World V} {x : Nat} {a' : Option Arr} {l : List Call} (h : LoggedVar w w' x a' l)
    {y : Nat} (hy : y ≠ x) : w'.vars y = w.vars y := by rw [h.vars, if_neg hy]

theorem LoggedVar.trans {w w1 w2 : World V} {x : Nat} {a1 a2 : Option Arr} {l1 l2 : List Call}
    (h1 : LoggedVar w w1 x a1 l1) (h2 : LoggedVar w1 w2 x a2 l2) : LoggedVar w w2 x a2 (l1 ++ l2) :=
  ⟨by rw [h2.calls, h1.calls, List.append_assoc], fun y => by
    rw [h2.vars, h1.vars]; split <;> rfl, by rw [h2.nextVar, h1.nextVar]⟩

theorem LoggedVar.then {w w1 w2 : World V} {x : Nat} {a1 : Option Arr} {l1 l2 : List Call}
    (h1 : LoggedVar w w1 x a1 l1) (h2 : Logged w1 w2 l2) : LoggedVar w w2 x a1 (l1 ++ l2) :=
  ⟨by rw [h2.calls, h1.calls, List.append_assoc], fun y => by rw [h2.vars, h1.vars],
    by rw [h2.nextVar, h1.nextVar]⟩

theorem Logged.var {w w1 : World V} {x : Nat} {a : Option Arr} {l : List Call} (h : Logged w w1 l)
    (ha : w.vars x = a) : LoggedVar w w1 x a l :=
  ⟨h.calls, fun y => by rw [h.vars]; split
                        · subst_vars; rfl
                        · rfl, h.nextVar⟩

theorem loggedVar_setVar (w : World V) (x : Nat) (a : Option Arr) : LoggedVar w (w.setVar x a) x a [] :=
  ⟨by simp [World.setVar], fun _ => rfl, rfl⟩

theorem loggedVar_setShape {x : Nat} {s : Shape} {w w' : World V} {a : Arr} (ha : w.vars x = some a)
    (h : setShapeMember x s w = .ok w') : LoggedVar w w' x (some { a with shape := s }) [] := by
  unfold setShapeMember at h
  rw [get_ok ha, bind_ok, Except.ok.injEq] at h
  subst h; exact loggedVar_setVar _ _ _

theorem loggedVar_deallocate {ty : Types V} {x : Nat} {w w' : World V} {a : Arr}
    (ha : w.vars x = some a) (hn : NonNeg a.shape) (h : deallocate ty x w = .ok w') :
    ∃ a', LoggedVar w w' x (some a') (times (owned a) .destroy) ∧ a'.base = none ∧
      (a'.shape = a.shape ∨ a'.shape = ty.defaultShape) ∧ a'.alloc.arena = a.alloc.arena := by
  unfold deallocate at h
  rw [get_ok ha, bind_ok] at h
  by_cases hb : a.base = none
  · rw [if_neg (by simp [hb]), Except.ok.injEq] at h
    subst h
    exact ⟨a, by rw [owned_null hb]; exact (Logged.refl w).var ha, hb, Or.inl rfl, rfl⟩
  · rw [if_pos (by simpa [Option.isSome_iff_ne_none] using hb)] at h
    replace h := ok_of_bind h
    obtain ⟨w1, h1, h⟩ := h
    replace h := ok_of_bind h
    obtain ⟨⟨w2, al⟩, h2, h⟩ := h
    simp only [Except.ok.injEq] at h
    subst h
    obtain ⟨h2, h3⟩ := logged_release h2
    have := ((((logged_destroy ha hn h1).trans h2).var ha).trans (loggedVar_setVar w2 x (some { a with
      alloc := al, base := none, shape := ty.defaultShape, buffer := none })))
    rw [List.append_nil, List.append_nil] at this
    exact ⟨_, this, rfl, Or.inr rfl, h3⟩

theorem loggedVar_allocate {ty : Types V} {x : Nat} {w w' : World V} {a : Arr}
    (ha : w.vars x = some a) (h : allocate ty x w = .ok w') :
    ∃ a', LoggedVar w w' x (some a') [] ∧ NotHollow a' ∧ a'.shape = a.shape.resolve ∧
      a'.alloc.arena = a.alloc.arena ∧ (a'.base = none → a'.shape.flatExtent = 0) := by
  unfold allocate at h
  rw [get_ok ha, bind_ok] at h
  replace h := ok_of_bind h
  obtain ⟨w1, h1, h⟩ := h
  obtain ⟨_, rfl⟩ := ok_of_assert h1
  dsimp only at h
  split at h
  · simp only [Except.ok.injEq] at h
    subst h
    refine ⟨_, ⟨by simp [World.setVar, World.setBlock], fun y => rfl, rfl⟩, fun h => by simp at h, rfl, ?_,
      fun h => by simp at h⟩
    unfold Allocator.allocate
    dsimp only
    split <;> rfl
  · rename_i hf
    replace h := ok_of_bind h
    obtain ⟨w2, h2, h⟩ := h
    obtain ⟨_, rfl⟩ := ok_of_check h2
    simp only [Except.ok.injEq] at h
    subst h
    exact ⟨_, loggedVar_setVar _ _ _, fun _ => not_pos_of_flatExtent (by simpa using hf), rfl, rfl, fun _ => by simpa using hf⟩

/-! ### Assignment -/

theorem logged_transfer (keep : Bool) {ty : Types V} {x y : Nat} {w w' : World V} {a o : Arr}
    (ha : w.vars x = some a) (ho : w.vars y = some o) (hl : List.length o.shape = List.length a.shape)
    (hn : NonNeg o.shape) (h : transfer keep ty x y w = .ok w') :
    Logged w w' (times (if o.base = none then 0 else owned a) (if keep then .copyConstruct else .moveConstruct)) := by
  cases keep
  · exact logged_moveConstruct ha ho hl hn h
  · exact logged_copyConstruct ha ho hl hn h

/-- `shape_ = other.shape_`, `allocate` and `copy_construct` or `move_construct`. -/
theorem loggedVar_build (keep : Bool) {ty : Types V} {x y : Nat} {w w' : World V} {a o : Arr}
    (ha : w.vars x = some a) (ho : w.vars y = some o) (hxy : y ≠ x) (hn : NonNeg o.shape)
    (h : (setShapeMember x o.shape w >>= fun w => allocate ty x w >>= transfer keep ty x y) = .ok w') :
    ∃ a', LoggedVar w w' x (some a') (times (owned o) (if keep then .copyConstruct else .moveConstruct)) ∧
      owned a' = volume o.shape ∧ a'.alloc.arena = a.alloc.arena ∧ (a'.base = none → a'.shape.flatExtent = 0) := by
  replace h := ok_of_bind h
  obtain ⟨w1, h1, h⟩ := h
  replace h := ok_of_bind h
  obtain ⟨w2, h2, h⟩ := h
  have l1 := loggedVar_setShape ha h1
  obtain ⟨a', l2, hh, hs, har, hfe⟩ := loggedVar_allocate l1.self h2
  have l12 := l1.trans l2
  have l3 := logged_transfer keep l12.self (by rw [l12.other hxy]; exact ho) (by rw [hs, resolve_length]) hn h
  have ho' : owned a' = volume o.shape := by rw [owned_eq hh, hs]; exact volume_resolve _
  refine ⟨a', ?_, ho', har, hfe⟩
  have := l12.then l3
  rw [List.append_nil, List.nil_append, ho'] at this
  convert this using 2
  unfold owned
  split <;> rfl

theorem assignArr_eq (keep : Bool) {ty : Types V} {x y : Nat} {w : World V} {a o : Arr}
    (ha : w.vars x = some a) (ho : w.vars y = some o) :
    assignArr keep ty x y w = (if a.base = o.base then
      (if a.base.isSome then assert ty (decide (a.shape = o.shape)) w
      else setShapeMember x o.shape w >>= fun w => assert ty o.shape.empty w)
    else (if a.base.isSome && decide (a.shape = o.shape) then destroy ty x w >>= transfer keep ty x y
      else deallocate ty x w >>= fun w => setShapeMember x o.shape w >>= fun w => allocate ty x w >>=
        transfer keep ty x y)) := by
  cases keep
  · show assignMove ty x y w = _
    unfold assignMove
    rw [get_ok ha, bind_ok, get_ok ho, bind_ok]
    split
    · rfl
    · split <;> rfl
  · show assignCopy ty x y w = _
    unfold assignCopy
    rw [get_ok ha, bind_ok, get_ok ho, bind_ok]
    split
    · rfl
    · split <;> rfl

theorem loggedVar_assign (keep : Bool) {ty : Types V} {x y : Nat} {w w' : World V} {a o : Arr}
    (ha : w.vars x = some a) (ho : w.vars y = some o) (hxy : y ≠ x) (hna : NonNeg a.shape) (hn : NonNeg o.shape)
    (hb : a.base = o.base → a.base = none)
    (h : assignArr keep ty x y w = .ok w') :
    ∃ a', LoggedVar w w' x (some a') (times (owned a) .destroy ++
      times (owned o) (if keep then .copyConstruct else .moveConstruct)) ∧ a'.alloc.arena = a.alloc.arena := by
  rw [assignArr_eq keep ha ho] at h
  by_cases hbb : a.base = o.base
  · have hab := hb hbb
    rw [if_pos hbb, if_neg (by simp [hab])] at h
    replace h := ok_of_bind h
    obtain ⟨w1, h1, h⟩ := h
    have := (loggedVar_setShape ha h1).then (logged_assert h)
    rw [owned_null hab, owned_null (hbb ▸ hab)]
    exact ⟨_, this, rfl⟩
  · rw [if_neg hbb] at h
    by_cases hc : (a.base.isSome && decide (a.shape = o.shape)) = true
    · rw [if_pos hc] at h
      simp only [Bool.and_eq_true, decide_eq_true_eq] at hc
      replace h := ok_of_bind h
      obtain ⟨w1, h1, h⟩ := h
      have l1 := logged_destroy ha hna h1
      have l2 := logged_transfer keep (by rw [l1.vars]; exact ha) (by rw [l1.vars]; exact ho) (by rw [hc.2]) hn h
      refine ⟨a, ?_, rfl⟩
      have := (l1.trans l2).var ha
      convert this using 3
      have h0 : a.base ≠ none := by simpa [Option.isSome_iff_ne_none] using hc.1
      rw [owned_some h0, hc.2]
      unfold owned
      split <;> rfl
    · rw [if_neg hc] at h
      replace h := ok_of_bind h
      obtain ⟨w1, h1, h⟩ := h
      obtain ⟨a1, l1, _, _, har1⟩ := loggedVar_deallocate ha hna h1
      obtain ⟨a2, l2, _, har2⟩ := loggedVar_build keep l1.self (by rw [l1.other hxy]; exact ho) hxy hn h
      exact ⟨a2, l1.trans l2, har2.1.trans har1⟩

theorem loggedVar_assignFill {ty : Types V} {x : Nat} {s : Shape} {v : V} {w w' : World V} {a : Arr}
    (ha : w.vars x = some a) (hh : NotHollow a) (hna : NonNeg a.shape) (hn : NonNeg s)
    (h : assignFill ty x s v w = .ok w') :
    ∃ a', LoggedVar w w' x (some a') (times (owned a) .destroy ++ times (volume s) .copyConstruct) := by
  unfold assignFill at h
  rw [get_ok ha, bind_ok] at h
  dsimp only at h
  split at h
  · rename_i hs
    replace h := ok_of_bind h
    obtain ⟨w1, h1, h⟩ := h
    have l1 := logged_destroy ha hna h1
    have l2 := logged_construct (by rw [l1.vars]; exact ha) hna h
    refine ⟨a, ?_⟩
    rw [owned_eq hh, hs, volume_resolve] at l2
    exact (l1.trans l2).var ha
  · replace h := ok_of_bind h
    obtain ⟨w1, h1, h⟩ := h
    replace h := ok_of_bind h
    obtain ⟨w2, h2, h⟩ := h
    replace h := ok_of_bind h
    obtain ⟨w3, h3, h⟩ := h
    obtain ⟨a1, l1, _, _⟩ := loggedVar_deallocate ha hna h1
    have l2 := loggedVar_setShape l1.self h2
    obtain ⟨a3, l3, hh3, hs3, _⟩ := loggedVar_allocate l2.self h3
    have l4 := logged_construct l3.self (by rw [hs3]; exact resolve_nonNeg.2 (resolve_nonNeg.2 hn)) h
    rw [owned_eq hh3, hs3] at l4
    rw [show volume ({ a1 with shape := s.resolve } : Arr).shape.resolve = volume s from by
      rw [volume_resolve, volume_resolve]] at l4
    exact ⟨a3, by simpa using ((l1.trans l2).trans l3).then l4⟩

theorem loggedVar_newShape {ty : Types V} {s : Shape} {al : Nat} {w w' : World V} (hn : NonNeg s)
    (h : newShapeAlloc ty s al w = .ok w') :
    ∃ a', LoggedVar (w.push ⟨⟨al, w.nextVar, false⟩, none, 0, none, s⟩) w' w.nextVar (some a')
      (times (volume s) .defaultConstruct) ∧ (a'.base = none → a'.shape.flatExtent = 0) := by
  unfold newShapeAlloc at h
  dsimp only at h
  replace h := ok_of_bind h
  obtain ⟨w1, h1, h⟩ := h
  obtain ⟨a', l1, hh, hs, _, hf⟩ := loggedVar_allocate (a := ⟨⟨al, w.nextVar, false⟩, none, 0, none, s⟩)
    (by simp [World.push, World.setVar]) h1
  have l2 := logged_construct l1.self (by rw [hs]; exact resolve_nonNeg.2 hn) h
  rw [owned_eq hh, hs] at l2
  refine ⟨a', ?_, hf⟩
  have := l1.then l2
  rwa [List.nil_append, volume_resolve] at this

theorem newShape_calls {ty : Types V} {s : Shape} {al : Nat} {w w' : World V} (hn : NonNeg s)
    (h : newShapeAlloc ty s al w = .ok w') : w'.calls = w.calls ++ times (volume s) .defaultConstruct := by
  obtain ⟨_, l, _⟩ := loggedVar_newShape hn h
  exact l.calls

end Nda
