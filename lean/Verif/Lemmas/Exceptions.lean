import Verif.Model.Exceptions
import Verif.Lemmas.ArrayRun
/-
Statements left by exceptions of the allocator or of assignments of elements.
-/
namespace Nda
open Spec

variable {V : Type} [Hollow V]

/-- `r` is `r0` unless an exception has been thrown, in which case the state satisfies `Q`. -/
def Safe (r0 : Except Fault (World V)) (Q : World V → Prop) (r : Except Fault (Left V)) : Prop :=
  match r with
  | .ok (.returned w _) => r0 = .ok w
  | .ok (.thrown w) => Q w
  | .error f => r0 = .error f

omit [Hollow V] in
theorem safe_lift (f : Op V) (Q : World V → Prop) (w : World V) (n : Nat) : Safe (f w) Q (lift f w n) := by
  unfold lift Safe
  cases f w <;> rfl

omit [Hollow V] in
theorem Safe.mono {r0 : Except Fault (World V)} {Q Q' : World V → Prop} {r : Except Fault (Left V)}
    (h : Safe r0 Q r) (hQ : ∀ w, Q w → Q' w) : Safe r0 Q' r := by
  unfold Safe at *
  split
  · exact h
  · exact hQ _ h
  · exact h

omit [Hollow V] in
theorem safe_seq {f g : OpX V} {f0 g0 : Op V} {Q : World V → Prop} {w : World V} {n : Nat}
    (hf : Safe (f0 w) Q (f w n)) (hg : ∀ w1 n1, f0 w = .ok w1 → Safe (g0 w1) Q (g w1 n1)) :
    Safe (f0 w >>= g0) Q ((f ⨟ g) w n) := by
  unfold andThen
  cases h : f w n with
  | error e =>
    rw [h] at hf
    have hf : f0 w = .error e := hf
    rw [hf]; rfl
  | ok l =>
    rw [h] at hf
    cases l with
    | returned w1 n1 =>
      have hf : f0 w = .ok w1 := hf
      rw [hf]
      exact hg w1 n1 hf
    | thrown w1 => exact hf

omit [Hollow V] in
theorem safe_unwinding {f : OpX V} {c : Op V} {r0 : Except Fault (World V)} {Q Q' : World V → Prop} {w : World V}
    {n : Nat} (hf : Safe r0 Q (f w n)) (hc : ∀ w1, Q w1 → ∃ w2, c w1 = .ok w2 ∧ Q' w2) :
    Safe r0 Q' (unwinding f c w n) := by
  unfold unwinding
  cases h : f w n with
  | error e => rw [h] at hf; exact hf
  | ok l =>
    rw [h] at hf
    cases l with
    | returned w1 n1 => exact hf
    | thrown w1 =>
      obtain ⟨w2, e, h2⟩ := hc w1 hf
      show Safe r0 Q' (c w1 >>= fun w => .ok (.thrown w))
      rw [e]; exact h2

omit [Hollow V] in
theorem safe_scope {f : OpX V} {c f0 : Op V} {Q Q' : World V → Prop} {w : World V}
    {n : Nat} (hf : Safe (f0 w) Q (f w n)) (hc : ∀ w1, Q w1 → ∃ w2, c w1 = .ok w2 ∧ Q' w2) :
    Safe (f0 w >>= c) Q' (scope f c w n) :=
  safe_seq (safe_unwinding hf hc) fun w1 n1 _ => safe_lift c Q' w1 n1

omit [Hollow V] in
theorem safe_calling {p : Plan V} {t : Thrower} {fail f : Op V} {Q : World V → Prop} {w : World V} {n : Nat}
    (h : p.who = t → ∃ w', fail w = .ok w' ∧ Q w') : Safe (f w) Q (calling p t fail f w n) := by
  unfold calling
  split
  · rename_i hp
    cases n with
    | zero =>
      obtain ⟨w', e, hq⟩ := h hp
      show Safe _ _ (fail w >>= fun w => .ok (.thrown w))
      rw [e]; exact hq
    | succ n => exact safe_lift f Q w n
  · exact safe_lift f Q w n

/-- A loop each of whose steps keeps `R`. -/
theorem safe_each {A : Type} (tr : List A) (f : A → Op V) (F : A → OpX V) (R : World V → World V → Prop)
    (hrefl : ∀ w, R w w) (htrans : ∀ w w' w'', R w w' → R w' w'' → R w w'')
    (ok : A → World V → Prop) (hmono : ∀ q ∈ tr, ∀ w w', R w w' → ok q w → ok q w')
    (hf : ∀ q ∈ tr, ∀ w w', ok q w → f q w = .ok w' → R w w')
    (hF : ∀ q ∈ tr, ∀ w n, ok q w → Safe (f q w) (R w) (F q w n))
    (w : World V) (n : Nat) (hok : ∀ q ∈ tr, ok q w) :
    Safe (tr.foldlM (fun w q => f q w) w) (R w) (each tr F w n) := by
  induction tr generalizing w n with
  | nil => exact safe_lift .ok _ w n
  | cons q tr ih =>
    rw [List.foldlM_cons]
    refine safe_seq (f0 := f q) (hF q (by simp) w n (hok q (by simp))) fun w1 n1 e1 => ?_
    have hR := hf q (by simp) w w1 (hok q (by simp)) e1
    refine (ih (fun q hq => hmono q (by simp [hq])) (fun q hq => hf q (by simp [hq]))
      (fun q hq => hF q (by simp [hq])) w1 n1 fun r hr => hmono r (by simp [hr]) _ _ hR (hok r (by simp [hr]))).mono
      fun w2 h2 => htrans _ _ _ hR h2

/-! ### Functions that do not throw -/

omit [Hollow V] in
theorem calling_lift {p : Plan V} {t : Thrower} (h : p.who ≠ t) (fail f : Op V) : calling p t fail f = lift f := by
  funext w n
  unfold calling
  rw [if_neg h]

omit [Hollow V] in
theorem each_lift {A : Type} (tr : List A) (f : A → Op V) :
    each tr (fun q => lift (f q)) = lift fun w => tr.foldlM (fun w q => f q w) w := by
  induction tr with
  | nil => rfl
  | cons q tr ih =>
    funext w n
    show (lift (f q) ⨟ each tr fun q => lift (f q)) w n = _
    rw [ih]
    unfold andThen lift
    simp only [List.foldlM_cons]
    cases f q w <;> rfl

omit [Hollow V] in
theorem constructX_lift {p : Plan V} (h : p.who ≠ .constructor) (ty : Types V) (x : Nat) (k : Call) (v : V) :
    constructX p ty x k v = lift (construct ty x k v) := by
  funext w n
  unfold constructX construct
  simp only [calling_lift h, each_lift]
  unfold lift
  dsimp only
  cases hx : w.get x with
  | error e => rfl
  | ok a =>
    simp only [bind_ok]
    cases assert ty (a.base.isSome || a.shape.empty) w with
    | error e => rfl
    | ok w1 =>
      simp only [bind_ok]
      cases a.base <;> rfl

omit [Hollow V] in
theorem constructFromX_lift {p : Plan V} (h : p.who ≠ .constructor) (keep : Bool) (ty : Types V) (bs bd : Nat)
    (q : Int × Int) :
    constructFromX keep p ty bs bd q = lift ((if keep then copyConstructAt else moveConstructAt ty) bs bd q) := by
  unfold constructFromX
  simp only [calling_lift h]
  cases keep <;> rfl

omit [Hollow V] in
theorem assignFromX_lift {p : Plan V} (h : p.who ≠ .assignment) (keep : Bool) (ty : Types V) (bs bd : Nat)
    (q : Int × Int) :
    assignFromX keep p ty bs bd q = lift ((if keep then copyAssignAt else moveAssignAt ty) bs bd q) := by
  unfold assignFromX
  simp only [calling_lift h]
  cases keep <;> rfl

omit [Hollow V] in
theorem forEachPairX_lift (ty : Types V) (src : Shape) (sb : Ptr) (dst : Shape) (db : Ptr)
    (f : Nat → Nat → Int × Int → Op V) :
    forEachPairX ty src sb dst db (fun bs bd q => lift (f bs bd q)) = lift (forEachPair ty src sb dst db f) := by
  funext w n
  unfold forEachPairX forEachPair
  cases sb with
  | none => rfl
  | some q =>
    cases db with
    | none => rfl
    | some r => exact congrFun (congrFun (each_lift _ _) w) n

omit [Hollow V] in
theorem transferX_lift {p : Plan V} (h : p.who ≠ .constructor) (keep : Bool) (ty : Types V) (x y : Nat) :
    transferX keep p ty x y = lift (transfer keep ty x y) := by
  funext w n
  have e : constructFromX keep p ty =
      fun bs bd q => lift ((if keep then copyConstructAt else moveConstructAt ty) bs bd q) := by
    funext bs bd q; exact constructFromX_lift h keep ty bs bd q
  unfold transferX
  rw [e]
  simp only [forEachPairX_lift]
  unfold lift transfer
  cases keep
  all_goals
    simp only [Bool.false_eq_true, if_false, if_true]
    first | unfold moveConstruct | unfold copyConstruct
    cases w.get x with
    | error e => rfl
    | ok a =>
      simp only [bind_ok]
      cases w.get y with
      | error e => rfl
      | ok o =>
        simp only [bind_ok]
        cases assert ty ((a.base.isSome || a.shape.empty) && decide (a.shape = o.shape)) w with
        | error e => rfl
        | ok w1 => rfl

/-! ### `allocate` -/

/-- The state after an exception: array `x` has no memory. -/
structure Emptied (p : Plan V) (ty : Types V) (T : Nat → Prop) (x : Nat) (w w' : World V) : Prop where
  who : p.who = .allocator
  inv : Inv ty w'
  step : Step T w w'
  next : w'.nextVar = w.nextVar
  var : ∃ a, w'.vars x = some a ∧ IsNull a

theorem Emptied.after {p : Plan V} {ty : Types V} {T : Nat → Prop} {x : Nat} {w0 w w' : World V} (h0 : Step T w0 w)
    (hn : w.nextVar = w0.nextVar) (h : Emptied p ty T x w w') : Emptied p ty T x w0 w' :=
  ⟨h.who, h.inv, h0.trans h.step, h.next.trans hn, h.var⟩

theorem allocateX_safe (hH : Hollow.ok V) (p : Plan V) {ty : Types V} {w : World V} {x : Nat} {a : Arr} (n : Nat)
    (hI : InvBut ty w x) (ha : w.vars x = some a) (hn : IsNull a) (hse : a.alloc.self = x)
    (hs : ShapeOk ty a.shape) (hx : x < w.nextVar) :
    Safe (allocate ty x w) (Emptied p ty (· = x) x w) (allocateX p ty x w n) := by
  unfold allocateX
  rw [get_ok ha, bind_ok, assert_ok (by simp [hn.buffer]), bind_ok]
  dsimp only
  split
  · refine safe_calling fun hw => ⟨_, rfl, ?_⟩
    have h1 : InvBut ty (w.setVar x (some { a with shape := a.shape.resolve, bufferSize := a.shape.resolve.flatExtent })) x :=
      hI.of_vars (fun y hy => by rw [setVar_vars, if_neg hy]) rfl rfl (fun _ _ h => h)
    exact ⟨hw, h1.close (setVar_self _ _ _) hse hx ⟨hn.buffer, hn.base, hn.idle⟩ hs.resolve (Or.inr (Or.inr hH)),
      step_setVar _ _ _, rfl, _, setVar_self _ _ _, ⟨hn.buffer, hn.base, hn.idle⟩⟩
  · exact safe_lift _ _ w n

theorem InvBut.setVar {ty : Types V} {w : World V} {x : Nat} (h : InvBut ty w x) (a : Option Arr) :
    InvBut ty (w.setVar x a) x :=
  h.of_vars (fun y hy => by rw [setVar_vars, if_neg hy]) rfl rfl (fun _ _ h => h)

/-- Deallocating, setting the shape, allocating. -/
theorem realloc_safe (hH : Hollow.ok V) (p : Plan V) {ty : Types V} {w : World V} {x : Nat} {a : Arr} (n : Nat)
    (hI : Inv ty w) (ha : w.vars x = some a) {s : Shape} (hs : ShapeOk ty s) :
    Safe (deallocate ty x w >>= fun w => setShapeMember x s w >>= fun w => allocate ty x w)
      (Emptied p ty (· = x) x w)
      ((lift (deallocate ty x) ⨟ lift (setShapeMember x s) ⨟ allocateX p ty x) w n) := by
  obtain ⟨w1, a1, e1, hI1, hv1, hn1, hal1, _, hnv1, hst1⟩ := deallocate_ok ty hI ha
  have ha1 : w1.vars x = some a1 := by rw [hv1]; simp
  have hx := hI.lt ha
  refine safe_seq (f0 := deallocate ty x) (safe_lift _ _ w n) fun w1' n1 e1' => ?_
  obtain rfl : w1 = w1' := by rw [e1] at e1'; simpa using e1'
  refine safe_seq (f0 := setShapeMember x s) (safe_lift _ _ w1 n1) fun w2 n2 e2 => ?_
  rw [setShapeMember_ok ha1] at e2
  simp only [Except.ok.injEq] at e2
  subst e2
  refine (allocateX_safe hH p n2 (hI1.setVar (some { a1 with shape := s }))
    (setVar_self _ _ _) ⟨hn1.buffer, hn1.base, hn1.idle⟩ (by dsimp only; rw [hal1]; exact hI.self x a ha) hs
    (by show x < w1.nextVar; omega)).mono fun w3 h3 => ?_
  exact h3.after (hst1.trans (step_setVar _ _ _)) hnv1

theorem assignFillX_safe (hH : Hollow.ok V) {p : Plan V} (hp : p.who ≠ .constructor) {ty : Types V} {w : World V}
    {x : Nat} {a : Arr} (n : Nat) (hI : Inv ty w) (ha : w.vars x = some a) {s : Shape} (hs : ShapeOk ty s) (v : V) :
    Safe (assignFill ty x s v w) (Emptied p ty (· = x) x w) (assignFillX p ty x s v w n) := by
  unfold assignFillX assignFill
  rw [get_ok ha, bind_ok, bind_ok, constructX_lift hp]
  dsimp only
  by_cases hss : a.shape = s.resolve
  · rw [if_pos hss, if_pos hss]
    exact safe_seq (f0 := destroy ty x) (safe_lift _ _ w n) fun w1 n1 _ => safe_lift _ _ w1 n1
  · rw [if_neg hss, if_neg hss]
    have h := safe_seq (f0 := fun w => deallocate ty x w >>= fun w => setShapeMember x s.resolve w >>= fun w => allocate ty x w)
      (g0 := construct ty x .copyConstruct v)
      (realloc_safe hH p n hI ha hs.resolve) fun w1 n1 _ => safe_lift _ _ w1 n1
    simpa only [bind_assoc] using h

theorem assignArrX_safe (hH : Hollow.ok V) (keep : Bool) {p : Plan V} (hp : p.who ≠ .constructor) {ty : Types V}
    {w : World V} {x y : Nat} {a o : Arr} (n : Nat) (hI : Inv ty w) (ha : w.vars x = some a) (ho : w.vars y = some o) :
    Safe (assignArr keep ty x y w) (Emptied p ty (· = x) x w) (assignArrX keep p ty x y w n) := by
  unfold assignArrX
  rw [get_ok ha, bind_ok, get_ok ho, bind_ok, transferX_lift hp]
  have e1 : assignArr keep ty x y = (if keep then assignCopy ty x y else assignMove ty x y) := by
    funext w; unfold assignArr; cases keep <;> rfl
  by_cases hbb : a.base = o.base
  · rw [if_pos hbb, e1]
    exact safe_lift _ _ w n
  · rw [if_neg hbb]
    have e0 : assignArr keep ty x y w =
      ((if a.base.isSome && decide (a.shape = o.shape) then destroy ty x w
      else deallocate ty x w >>= fun w => setShapeMember x o.shape w >>= fun w =>
        allocate ty x w) >>= transfer keep ty x y) := by
      unfold assignArr transfer
      cases keep
      · simp only [Bool.false_eq_true, if_false]
        unfold assignMove
        rw [get_ok ha, get_ok ho]
        simp only [bind_ok, if_neg hbb]
        split <;> simp only [bind_assoc]
      · simp only [if_true]
        unfold assignCopy
        rw [get_ok ha, get_ok ho]
        simp only [bind_ok, if_neg hbb]
        split <;> simp only [bind_assoc]
    rw [e0]
    by_cases hc : (a.base.isSome && decide (a.shape = o.shape)) = true
    · rw [if_pos hc, if_pos hc]
      exact safe_seq (f0 := destroy ty x) (safe_lift _ _ w n) fun w1 n1 _ => safe_lift _ _ w1 n1
    · rw [if_neg hc, if_neg hc]
      exact safe_seq (f0 := fun w => deallocate ty x w >>= fun w => setShapeMember x o.shape w >>= fun w => allocate ty x w)
        (realloc_safe hH p n hI ha (hI.good y o ho).shape) fun w1 n1 _ => safe_lift _ _ w1 n1

/-! ### Constructors -/

/-- The state after an exception: only the objects `T` have changed. -/
structure Kept (p : Plan V) (ty : Types V) (T : Nat → Prop) (w w' : World V) : Prop where
  inv : Inv ty w'
  step : Step T w w'
  next : w.nextVar ≤ w'.nextVar
  vars : p.who ≠ .allocator → ∀ z, w'.vars z = w.vars z

theorem Kept.mono {p : Plan V} {ty : Types V} {T U : Nat → Prop} {w w' : World V} (h : Kept p ty T w w') (hTU : ∀ z, T z → U z) :
    Kept p ty U w w' := ⟨h.inv, h.step.mono hTU, h.next, h.vars⟩

theorem Emptied.kept {p : Plan V} {ty : Types V} {T : Nat → Prop} {x : Nat} {w w' : World V} (h : Emptied p ty T x w w') :
    Kept p ty T w w' := ⟨h.inv, h.step, h.next.ge, fun h' => absurd h.who h'⟩

theorem Inv.drop {ty : Types V} {w : World V} {x : Nat} {a : Arr} (hI : Inv ty w) (ha : w.vars x = some a)
    (hn : IsNull a) : Inv ty (w.setVar x none) := by
  obtain ⟨w', e, h, _⟩ := delete_ok hI ha
  unfold delete at e
  rw [deallocate_null ty ha hn.base, bind_ok] at e
  obtain rfl : w.setVar x none = w' := by simpa using e
  exact h

/-- A constructor left by an exception: nothing has changed. -/
theorem buildX_safe {p : Plan V} {ty : Types V} {w : World V} (hI : Inv ty w) (a : Arr) {body : OpX V} {body0 : Op V} (n : Nat)
    (h : Safe (body0 (w.push a)) (Emptied p ty (· = w.nextVar) w.nextVar (w.push a)) (body (w.push a) n)) :
    Safe (body0 (w.push a)) (Kept p ty (fun _ => False) w) (buildX a body w n) := by
  unfold buildX
  refine safe_unwinding (Q := Emptied p ty (· = w.nextVar) w.nextVar (w.push a)) ?_ ?_
  · have : (lift (fun w => .ok (w.push a)) ⨟ body) w n = body (w.push a) n := rfl
    rw [this]; exact h
  · intro w1 h1
    obtain ⟨a1, hv1, hn1⟩ := h1.var
    refine ⟨_, rfl, h1.inv.drop hv1 hn1, ?_, ?_, fun h => absurd h1.who h⟩
    · refine Step.trim (n := w.nextVar) ?_ (hI.freshVar _ le_rfl) (setVar_self _ _ _)
      exact (((hI.step_push a).trans h1.step).trans (step_setVar _ _ _)).mono fun z hz => Or.inr hz
    · show w.nextVar ≤ w1.nextVar
      rw [h1.next]; exact Nat.le_succ _

theorem newShapeAllocX_safe (hH : Hollow.ok V) {p : Plan V} (hp : p.who ≠ .constructor) {ty : Types V} {w : World V}
    (n : Nat) (hI : Inv ty w) {s : Shape} (hs : ShapeOk ty s) (al : Nat) :
    Safe (newShapeAlloc ty s al w) (Kept p ty (fun _ => False) w) (newShapeAllocX p ty s al w n) := by
  unfold newShapeAllocX newShapeAlloc
  rw [constructX_lift hp]
  refine buildX_safe (body0 := fun w' => allocate ty w.nextVar w' >>= construct ty w.nextVar .defaultConstruct ty.defaultValue)
    hI _ n ?_
  exact safe_seq (f0 := allocate ty w.nextVar)
    (allocateX_safe hH p n (hI.push _) (by rw [push_vars, if_pos rfl]) ⟨rfl, rfl, rfl⟩ rfl hs (Nat.lt_succ_self _))
    fun w1 n1 _ => safe_lift _ _ w1 n1

/-- The rest of a delegating constructor, or of the scope of a local variable: its destructor runs. -/
theorem Kept.delete {p : Plan V} {ty : Types V} {T : Nat → Prop} {w w1 w2 : World V} {m : Nat} (hfresh : w.vars m = none)
    (hst : Step (fun z => T z ∨ z = m) w w1) (hn : w.nextVar ≤ w1.nextVar)
    (hvars : p.who ≠ .allocator → ∀ z, z ≠ m → w1.vars z = w.vars z)
    (h : Kept p ty (fun z => T z ∨ z = m) w1 w2) {a : Arr} (ha : w2.vars m = some a) :
    ∃ w3, Nda.delete ty m w2 = .ok w3 ∧ Kept p ty T w w3 := by
  obtain ⟨w3, e, hI3, hst3, hv3, hn3⟩ := delete_ok h.inv ha
  refine ⟨w3, e, hI3, Step.trim (n := m) ((hst.trans h.step).trans (hst3.mono fun z hz => Or.inr hz)) hfresh hv3,
    by have := h.next; omega, fun hw z => ?_⟩
  by_cases hz : z = m
  · rw [hz, hv3, hfresh]
  · rw [hst3.vars z hz, h.vars hw z, hvars hw z hz]

theorem newFillAllocX_safe (hH : Hollow.ok V) {p : Plan V} (hp : p.who ≠ .constructor) {ty : Types V}
    (hdef : TypesOk ty) {w : World V} (n : Nat) (hI : Inv ty w) {s : Shape} (hs : ShapeOk ty s) (v : V) (al : Nat) :
    Safe (newFillAlloc ty s v al w) (Kept p ty (fun _ => False) w) (newFillAllocX p ty s v al w n) := by
  obtain ⟨w1, a1, e1, hI1, hst1, hnv1, hv1, _⟩ := newShapeAlloc_ok hI hdef.shape al
  unfold newFillAllocX newFillAlloc
  refine safe_seq (f0 := newAlloc ty al) (newShapeAllocX_safe hH hp n hI hdef.shape al) fun w1' n1 e1' => ?_
  have e1' : newShapeAlloc ty ty.defaultShape al w = .ok w1' := e1'
  obtain rfl : w1 = w1' := by rw [e1] at e1'; simpa using e1'
  refine safe_unwinding (assignFillX_safe hH hp n1 hI1 hv1 hs v) fun w2 h2 => ?_
  obtain ⟨a2, hv2, _⟩ := h2.var
  exact Kept.delete (hI.freshVar _ le_rfl) (hst1.mono fun z hz => Or.inr hz) (by omega) (fun _ => hst1.vars)
    (h2.kept.mono fun z hz => Or.inr hz) hv2

theorem newCopyAllocX_safe (hH : Hollow.ok V) {p : Plan V} (hp : p.who ≠ .constructor) {ty : Types V}
    (hdef : TypesOk ty) {w : World V} (n : Nat) (hI : Inv ty w) {y : Nat} {o : Arr} (ho : w.vars y = some o) (al : Nat) :
    Safe (newCopyAlloc ty y al w) (Kept p ty (fun _ => False) w) (newCopyAllocX p ty y al w n) := by
  obtain ⟨w1, a1, e1, hI1, hst1, hnv1, hv1, _⟩ := newShapeAlloc_ok hI hdef.shape al
  have hyn : y ≠ w.nextVar := by have := hI.lt ho; omega
  unfold newCopyAllocX newCopyAlloc
  refine safe_seq (f0 := newAlloc ty al) (newShapeAllocX_safe hH hp n hI hdef.shape al) fun w1' n1 e1' => ?_
  have e1' : newShapeAlloc ty ty.defaultShape al w = .ok w1' := e1'
  obtain rfl : w1 = w1' := by rw [e1] at e1'; simpa using e1'
  refine safe_unwinding (assignArrX_safe hH true hp n1 hI1 hv1 (y := y) (o := o)
    (by rw [hst1.vars y hyn]; exact ho)) fun w2 h2 => ?_
  obtain ⟨a2, hv2, _⟩ := h2.var
  exact Kept.delete (hI.freshVar _ le_rfl) (hst1.mono fun z hz => Or.inr hz) (by omega) (fun _ => hst1.vars)
    (h2.kept.mono fun z hz => Or.inr hz) hv2

theorem push_inv {ty : Types V} (hdef : TypesOk ty) {w : World V} (hI : Inv ty w) (al : Nat) :
    Inv ty (w.push ⟨⟨al, w.nextVar, false⟩, none, 0, none, ty.defaultShape⟩) :=
  (hI.push _).close (by rw [push_vars, if_pos rfl]) rfl (Nat.lt_succ_self _) ⟨rfl, rfl, rfl⟩ hdef.shape (Or.inl rfl)

theorem newCopyX_safe (hH : Hollow.ok V) {p : Plan V} (hp : p.who ≠ .constructor) {ty : Types V}
    (hdef : TypesOk ty) {w : World V} (n : Nat) (hI : Inv ty w) {y : Nat} {o : Arr} (ho : w.vars y = some o) :
    Safe (newCopy ty y w) (Kept p ty (fun _ => False) w) (newCopyX p ty y w n) := by
  have hyn : y ≠ w.nextVar := by have := hI.lt ho; omega
  unfold newCopyX newCopy
  dsimp only
  rw [get_ok ho, bind_ok, bind_ok]
  exact buildX_safe (body0 := assignArr true ty w.nextVar y) hI _ n
    (assignArrX_safe hH true hp n (push_inv hdef hI _) (by rw [push_vars, if_pos rfl])
      (by rw [push_vars, if_neg hyn]; exact ho))

theorem newMoveElementsX_safe (hH : Hollow.ok V) {p : Plan V} (hp : p.who ≠ .constructor) {ty : Types V}
    {w : World V} (n : Nat) (hI : Inv ty w) {y : Nat} {o : Arr} (ho : w.vars y = some o) (al : Nat) :
    Safe (setShapeMember w.nextVar o.shape (w.push ⟨⟨al, w.nextVar, false⟩, none, 0, none, ty.defaultShape⟩) >>=
        fun w' => allocate ty w.nextVar w' >>= transfer false ty w.nextVar y)
      (Kept p ty (fun _ => False) w) (newMoveElementsX p ty y al w n) := by
  unfold newMoveElementsX
  rw [get_ok ho, bind_ok, transferX_lift hp]
  refine buildX_safe (body0 := fun w' => setShapeMember w.nextVar o.shape w' >>=
    fun w' => allocate ty w.nextVar w' >>= transfer false ty w.nextVar y) hI _ n ?_
  have hv : (w.push ⟨⟨al, w.nextVar, false⟩, none, 0, none, ty.defaultShape⟩).vars w.nextVar =
      some ⟨⟨al, w.nextVar, false⟩, none, 0, none, ty.defaultShape⟩ := by rw [push_vars, if_pos rfl]
  refine safe_seq (f0 := setShapeMember w.nextVar o.shape) (safe_lift _ _ _ n) fun w1 n1 e1 => ?_
  rw [setShapeMember_ok hv] at e1
  simp only [Except.ok.injEq] at e1
  subst e1
  refine safe_seq (f0 := allocate ty w.nextVar) ?_ fun w2 n2 _ => safe_lift _ _ w2 n2
  refine (allocateX_safe hH p n1 ((hI.push ⟨⟨al, w.nextVar, false⟩, none, 0, none, ty.defaultShape⟩).setVar
    (some ⟨⟨al, w.nextVar, false⟩, none, 0, none, o.shape⟩)) (setVar_self _ _ _) ⟨rfl, rfl, rfl⟩ rfl (hI.good y o ho).shape (Nat.lt_succ_self _)).mono fun w3 h3 => ?_
  exact h3.after (step_setVar _ _ _) rfl

theorem newMoveX_safe (hH : Hollow.ok V) {p : Plan V} (hp : p.who ≠ .constructor) {ty : Types V}
    {w : World V} (n : Nat) (hI : Inv ty w) {y : Nat} {o : Arr} (ho : w.vars y = some o) :
    Safe (newMove ty y w) (Kept p ty (fun _ => False) w) (newMoveX p ty y w n) := by
  unfold newMoveX
  rw [get_ok ho, bind_ok]
  split
  · exact safe_lift _ _ w n
  · rename_i hc
    have e : newMove ty y w = (setShapeMember w.nextVar o.shape
        (w.push ⟨⟨allocatorForMove ty o, w.nextVar, false⟩, none, 0, none, ty.defaultShape⟩) >>=
        fun w' => allocate ty w.nextVar w' >>= transfer false ty w.nextVar y) := by
      unfold newMove
      dsimp only
      rw [get_ok ho, bind_ok, if_neg hc]
      rfl
    rw [e]
    exact newMoveElementsX_safe hH hp n hI ho _

theorem newMoveAllocX_safe (hH : Hollow.ok V) {p : Plan V} (hp : p.who ≠ .constructor) {ty : Types V}
    {w : World V} (n : Nat) (hI : Inv ty w) {y : Nat} {o : Arr} (ho : w.vars y = some o) (al : Nat) :
    Safe (newMoveAlloc ty y al w) (Kept p ty (fun _ => False) w) (newMoveAllocX p ty y al w n) := by
  unfold newMoveAllocX
  rw [get_ok ho, bind_ok]
  split
  · exact safe_lift _ _ w n
  · rename_i hc
    have e : newMoveAlloc ty y al w = (setShapeMember w.nextVar o.shape
        (w.push ⟨⟨al, w.nextVar, false⟩, none, 0, none, ty.defaultShape⟩) >>=
        fun w' => allocate ty w.nextVar w' >>= transfer false ty w.nextVar y) := by
      unfold newMoveAlloc
      dsimp only
      rw [get_ok ho, bind_ok, if_neg hc]
      rfl
    rw [e]
    exact newMoveElementsX_safe hH hp n hI ho _

/-! ### Exceptions of assignments of elements -/

/-- Only values have changed, those of the elements `D`. -/
structure Touch (D : Nat × Int → Prop) (w w' : World V) : Prop where
  same : SameSkel w w'
  cells : ∀ c, ¬ D c → w'.cells c = w.cells c

omit [Hollow V] in
theorem Touch.refl (D : Nat × Int → Prop) (w : World V) : Touch D w w := ⟨SameSkel.refl w, fun _ _ => rfl⟩

omit [Hollow V] in
theorem Touch.trans {D : Nat × Int → Prop} {w w' w'' : World V} (h : Touch D w w') (h' : Touch D w' w'') :
    Touch D w w'' := ⟨h.same.trans h'.same, fun c hc => (h'.cells c hc).trans (h.cells c hc)⟩

theorem Touch.kept {p : Plan V} {ty : Types V} {D : Nat × Int → Prop} {T : Nat → Prop} {w w' : World V} (hI : Inv ty w)
    (h : Touch D w w')
    (hD : ∀ z c b q, ¬ T z → w.vars z = some c → c.buffer = some (b, 0) → ¬ D (b, q)) : Kept p ty T w w' :=
  ⟨h.same.inv hI, h.same.step fun z c b q hz hc hb => h.cells _ (hD z c b q hz hc hb), h.same.nextVar.ge,
    fun _ _ => by rw [h.same.vars]⟩

omit [Hollow V] in
theorem leave_touch {D : Nat × Int → Prop} {w : World V} {b : Nat} {o : Int} (h : Alive w (b, o)) (hD : D (b, o))
    (f : V → V) : ∃ w', leaveAt b o f w = .ok w' ∧ Touch D w w' := by
  obtain ⟨blk, h1, h2, h3, h4⟩ := h
  unfold leaveAt
  rw [block_ok h1 h2 h3, bind_ok, if_neg (by dsimp only at h4; omega)]
  refine ⟨_, rfl, ⟨rfl, rfl, rfl, fun c => ?_⟩, fun c hc => ?_⟩
  · by_cases hcb : c = b
    · subst hcb
      rw [skel_some h1]
      unfold World.skel
      simp [World.setBlock, Block.skel]
    · unfold World.skel
      simp [World.setBlock, hcb]
  · unfold World.cells
    by_cases hcb : c.1 = b
    · have hco : c.2 ≠ o := by
        rintro rfl
        exact hc (by subst hcb; exact hD)
      dsimp only at h1
      simp [World.setBlock, hcb, h1, hco]
    · simp [World.setBlock, hcb]

/-- A loop of assignments. -/
theorem assign_each {A : Type} {p : Plan V} (D : Nat × Int → Prop) (tr : List A) (f fail : A → Op V)
    (F : A → OpX V) (hF : ∀ q ∈ tr, F q = calling p .assignment (fail q) (f q)) (ok : A → World V → Prop)
    (hmono : ∀ q ∈ tr, ∀ w w', SameSkel w w' → ok q w → ok q w')
    (hf : ∀ q ∈ tr, ∀ w w', ok q w → f q w = .ok w' → Touch D w w')
    (hfail : ∀ q ∈ tr, ∀ w, ok q w → ∃ w', fail q w = .ok w' ∧ Touch D w w')
    (w : World V) (n : Nat) (hok : ∀ q ∈ tr, ok q w) :
    Safe (tr.foldlM (fun w q => f q w) w) (Touch D w) (each tr F w n) :=
  safe_each tr f F (Touch D) (Touch.refl D) (fun _ _ _ h h' => h.trans h') ok
    (fun q hq w w' hT h => hmono q hq w w' hT.same h) hf
    (fun q hq w n h => by rw [hF q hq]; exact safe_calling fun _ => hfail q hq w h) w n hok

theorem transfer_touch (keep : Bool) {D : Nat × Int → Prop} {ty : Types V} {w w' : World V} {bs bd : Nat}
    {q : Int × Int} (hs : Alive w (bs, q.1)) (hd : Alive w (bd, q.2)) (hDd : D (bd, q.2))
    (hDs : keep = false → D (bs, q.1))
    (e : (if keep then copyAssignAt else moveAssignAt ty) bs bd q w = .ok w') : Touch D w w' := by
  obtain ⟨w1, e1, hk, hc⟩ := transfer_cells keep (ty := ty) hs hd
  rw [e] at e1
  simp only [Except.ok.injEq] at e1
  subst e1
  refine ⟨hk, fun c hcD => ?_⟩
  rw [hc]
  unfold transferCell
  rw [if_neg (by rintro rfl; exact hcD hDd), if_neg (by rintro ⟨hk, rfl⟩; exact hcD (hDs hk))]

/-- The loop of `copy` and `move`. -/
theorem pairX_safe (keep : Bool) (p : Plan V) {ty : Types V} {w : World V} {y x : Nat} {o a : Arr} {src dst : Shape}
    {soff doff : Int} (n : Nat) (hI : Inv ty w) (ho : w.vars y = some o) (ha : w.vars x = some a)
    (hlen : List.length src = List.length dst) (hns : NonNeg src)
    (hsub : o.base ≠ none → a.base ≠ none → ∀ i, InBox dst i → Refers o src soff i ∧ Refers a dst doff i) :
    Safe (forEachPair ty src (o.base.map fun q => (q.1, q.2 + soff)) dst (a.base.map fun q => (q.1, q.2 + doff))
        (if keep then copyAssignAt else moveAssignAt ty) w)
      (fun w' => Kept p ty (fun z => z = x ∨ (keep = false ∧ z = y)) w w' ∧ w'.vars = w.vars)
      (forEachPairX ty src (o.base.map fun q => (q.1, q.2 + soff)) dst (a.base.map fun q => (q.1, q.2 + doff))
        (assignFromX keep p ty) w n) := by
  by_cases hob : o.base = none
  · rw [hob]; exact safe_lift _ _ w n
  by_cases hab : a.base = none
  · rw [hab, Option.map_none]
    obtain ⟨b, blk, hh, _⟩ := (hI.good y o ho).full hob
    rw [hh.base]
    exact safe_lift _ _ w n
  have hsub := hsub hob hab
  obtain ⟨b, blk, hh, _⟩ := (hI.good y o ho).full hob
  obtain ⟨c, blk', hh', _⟩ := (hI.good x a ha).full hab
  have hperm := copyForEachValue_perm' hlen hns (0 - o.shape.flatMin + soff) (0 - a.shape.flatMin + doff)
  have hcs : ∀ i, o.cell src soff i = (b, 0 - o.shape.flatMin + soff + offsetOf src i) := by
    intro i; unfold Arr.cell; rw [hh.base]
  have hcd : ∀ i, a.cell dst doff i = (c, 0 - a.shape.flatMin + doff + offsetOf dst i) := by
    intro i; unfold Arr.cell; rw [hh'.base]
  unfold forEachPair forEachPairX
  rw [hh.base, hh'.base]
  dsimp only [Option.map_some]
  have hF : assignFromX keep p ty b c = fun q => calling p .assignment
      (if keep then leaveAt c q.2 p.dst else fun w => do leaveAt c q.2 p.dst (← leaveAt b q.1 p.src w))
      ((if keep then copyAssignAt else moveAssignAt ty) b c q) := by
    funext q
    unfold assignFromX
    cases keep <;> rfl
  have key := assign_each (p := p) (fun d => d.1 = c ∨ (keep = false ∧ d.1 = b))
    (copyForEachValue src (some (0 - o.shape.flatMin + soff)) dst (some (0 - a.shape.flatMin + doff)))
    ((if keep then copyAssignAt else moveAssignAt ty) b c)
    (fun q => if keep then leaveAt c q.2 p.dst else fun w => do leaveAt c q.2 p.dst (← leaveAt b q.1 p.src w))
    (assignFromX keep p ty b c) (fun q _ => by rw [hF])
    (fun q w => Alive w (b, q.1) ∧ Alive w (c, q.2))
    (fun q _ w w' hk h => ⟨hk.alive h.1, hk.alive h.2⟩)
    (fun q _ w w' h e => transfer_touch keep h.1 h.2 (Or.inl rfl) (fun hk => Or.inr ⟨hk, rfl⟩) e)
    (fun q _ w h => by
      cases keep with
      | true => exact leave_touch h.2 (Or.inl rfl) p.dst
      | false =>
        obtain ⟨w1, e1, t1⟩ := leave_touch (D := fun d => d.1 = c ∨ (false = false ∧ d.1 = b)) h.1
          (Or.inr ⟨rfl, rfl⟩) p.src
        obtain ⟨w2, e2, t2⟩ := leave_touch (D := fun d => d.1 = c ∨ (false = false ∧ d.1 = b)) (t1.same.alive h.2)
          (Or.inl rfl) p.dst
        refine ⟨w2, ?_, t1.trans t2⟩
        simp only [Bool.false_eq_true, if_false]
        rw [e1, bind_ok, e2])
    w n (by
      intro q hq
      obtain ⟨i, hi, rfl⟩ := List.mem_map.1 (hperm.mem_iff.1 hq)
      obtain ⟨h1, h2⟩ := hsub i (mem_boxList.1 hi)
      have h1 := h1.alive hI ho
      have h2 := h2.alive hI ha
      rw [hcs] at h1
      rw [hcd] at h2
      exact ⟨h1, h2⟩)
  refine key.mono fun w' h => ⟨h.kept hI ?_, h.same.vars⟩
  intro z d e q hz hd he
  dsimp only
  rw [not_or] at hz
  rintro (rfl | ⟨hk, rfl⟩)
  · exact hz.1 (hI.disj z x d a e 0 0 hd ha he hh'.buffer)
  · exact hz.2 ⟨hk, hI.disj z y d o e 0 0 hd ho he hh.buffer⟩

theorem assignElementsX_safe (keep : Bool) (p : Plan V) {ty : Types V} {w : World V} {y x : Nat} {o a : Arr}
    {src dst : Shape} {soff doff : Int} (n : Nat) (hI : Inv ty w) (ho : w.vars y = some o) (ha : w.vars x = some a)
    (hlen : List.length src = List.length dst) (hns : NonNeg src)
    (hsub : o.base ≠ none → a.base ≠ none → ∀ i, InBox dst i → Refers o src soff i ∧ Refers a dst doff i) :
    Safe (assignElements keep ty src (o.base.map fun q => (q.1, q.2 + soff)) dst
        (a.base.map fun q => (q.1, q.2 + doff)) w)
      (fun w' => Kept p ty (fun z => z = x ∨ (keep = false ∧ z = y)) w w' ∧ w'.vars = w.vars)
      (assignElementsX keep p ty src (o.base.map fun q => (q.1, q.2 + soff)) dst
        (a.base.map fun q => (q.1, q.2 + doff)) w n) := by
  unfold assignElements assignElementsX
  split
  · exact safe_lift .ok _ w n
  · refine safe_seq (f0 := assert ty (copyAssert src dst)) (safe_lift _ _ w n) fun w1 n1 e1 => ?_
    have : w1 = w := by
      unfold assert check at e1
      split at e1
      · simpa using e1.symm
      · simp at e1
    subst this
    exact pairX_safe keep p n1 hI ho ha hlen hns hsub

theorem assignRefX_safe (keep : Bool) (p : Plan V) {ty : Types V} {w : World V} {y x : Nat} {o a : Arr}
    {src dst : Shape} {soff doff : Int} (n : Nat) (hI : Inv ty w) (ho : w.vars y = some o) (ha : w.vars x = some a)
    (hv : PairOk o src soff a dst doff) :
    Safe (assignRef keep ty y src soff x dst doff w) (Kept p ty (fun z => z = x ∨ (keep = false ∧ z = y)) w)
      (assignRefX keep p ty y src soff x dst doff w n) := by
  unfold assignRef assignRefX
  rw [get_ok ho, bind_ok, get_ok ha, bind_ok, bind_ok, bind_ok]
  exact (assignElementsX_safe keep p n hI ho ha hv.rank hv.nonNegSrc fun _ _ i hi => (hv.sub i hi).2).mono
    fun _ h => h.1

theorem forEachRefX_safe (p : Plan V) {ty : Types V} {w : World V} {x : Nat} {a : Arr} {s : Shape} {off : Int}
    (f : Nat → V → V) (n : Nat) (hI : Inv ty w) (ha : w.vars x = some a) (hv : PartOk a s off) :
    Safe (forEachRef ty x s off f w) (Kept p ty (· = x) w) (forEachRefX p ty x s off f w n) := by
  unfold forEachRef forEachRefX
  rw [get_ok ha, bind_ok, bind_ok]
  by_cases hab : a.base = none
  · rw [hab]; exact safe_lift _ _ w n
  obtain ⟨c, blk', hh', _⟩ := (hI.good x a ha).full hab
  have hperm := forEachValue_perm s hv.nonNeg (0 - a.shape.flatMin + off)
  have hcd : ∀ i, a.cell s off i = (c, 0 - a.shape.flatMin + off + offsetOf s i) := by
    intro i; unfold Arr.cell; rw [hh'.base]
  rw [hh'.base]
  dsimp only
  refine (assign_each (p := p) (fun d => d.1 = c) _ (fun q : Int × Nat => replaceAt c (f q.2) q.1)
    (fun q => leaveAt c q.1 p.dst) _ (fun q _ => rfl) (fun q w => Alive w (c, q.1))
    (fun q _ w w' hk h => hk.alive h) (fun q _ w w' h e => ?_) (fun q _ w h => leave_touch (D := fun d => d.1 = c) h rfl p.dst)
    w n ?_).mono fun w' h => h.kept hI ?_
  · obtain ⟨w1, e1, hk, hc⟩ := update_cells h (f q.2)
    rw [e] at e1
    simp only [Except.ok.injEq] at e1
    subst e1
    exact ⟨hk, fun d hd => by rw [hc]; dsimp only; rw [if_neg fun h => hd (by rw [h])]⟩
  · intro q hq
    obtain ⟨i, hi, e⟩ := List.mem_map.1 (hperm.mem_iff.1 (List.fst_mem_of_mem_zipIdx hq))
    have h2 := (hv.sub i (mem_boxList.1 hi)).alive hI ha
    rw [hcd, e] at h2
    exact h2
  · intro z d e q hz hd he
    rintro rfl
    exact hz (hI.disj z x d a e 0 0 hd ha he hh'.buffer)

theorem transformRefX_safe (p : Plan V) {ty : Types V} {w : World V} {x : Nat} {a : Arr} {s : Shape} {off : Int}
    (f : Index → V) (n : Nat) (hI : Inv ty w) (ha : w.vars x = some a) (hv : PartOk a s off) :
    Safe (transformRef x s off f w) (Kept p ty (· = x) w) (transformRefX p x s off f w n) := by
  unfold transformRef transformRefX
  rw [get_ok ha, bind_ok, bind_ok, forEachIndex_eq hv.nonNeg]
  dsimp only
  by_cases hp : Pos s
  swap
  · rw [boxList_nil hp]
    exact safe_lift .ok _ w n
  obtain ⟨c, blk', hh', _⟩ := (hI.good x a ha).full (hv.sub _ (min_inBox hp)).1
  have hcd : ∀ i, a.cell s off i = (c, 0 - a.shape.flatMin + off + offsetOf s i) := by
    intro i; unfold Arr.cell; rw [hh'.base]
  rw [hh'.base]
  dsimp only
  refine (assign_each (p := p) (fun d => d.1 = c) _
    (fun i => assignAt .moveAssign c (0 - a.shape.flatMin + off + s.flatOffset i) (f i))
    (fun i => leaveAt c (0 - a.shape.flatMin + off + s.flatOffset i) p.dst) _ (fun q _ => rfl)
    (fun i w => Alive w (c, 0 - a.shape.flatMin + off + s.flatOffset i))
    (fun q _ w w' hk h => hk.alive h) (fun i _ w w' h e => ?_) (fun q _ w h => leave_touch (D := fun d => d.1 = c) h rfl p.dst)
    w n ?_).mono fun w' h => h.kept hI ?_
  · obtain ⟨w1, e1, hk, hc⟩ := assign_cells h .moveAssign (f i)
    rw [e] at e1
    simp only [Except.ok.injEq] at e1
    subst e1
    exact ⟨hk, fun d hd => by rw [hc]; dsimp only; rw [if_neg fun h => hd (by rw [h])]⟩
  · intro i hi
    have h2 := (hv.sub i (mem_boxList.1 hi)).alive hI ha
    rw [hcd] at h2
    rw [flatOffset_eq]
    exact h2
  · intro z d e q hz hd he
    rintro rfl
    exact hz (hI.disj z x d a e 0 0 hd ha he hh'.buffer)

theorem writeX_safe (p : Plan V) {ty : Types V} {w : World V} {x : Nat} {a : Arr} (n : Nat) (hI : Inv ty w)
    (ha : w.vars x = some a) (hb : a.base ≠ none) {i : Index} (hi : InBox a.shape i) (v : V) :
    Safe (write x i v w) (Kept p ty (· = x) w) (writeX p x i v w n) := by
  obtain ⟨c, blk', hh', _⟩ := (hI.good x a ha).full hb
  have h2 := (refers_self hb hi).alive hI ha
  have hcd : a.cell a.shape 0 i = (c, 0 - a.shape.flatMin + offsetOf a.shape i) := by
    unfold Arr.cell; rw [hh'.base]; simp
  rw [hcd] at h2
  unfold writeX
  rw [get_ok ha, bind_ok, hh'.base]
  dsimp only
  rw [flatOffset_eq]
  refine safe_calling fun _ => ?_
  obtain ⟨w', e, t⟩ := leave_touch (D := fun d => d.1 = c) h2 rfl p.dst
  refine ⟨w', e, t.kept hI ?_⟩
  clear e
  intro z d e q hz hd he
  rintro rfl
  exact hz (hI.disj z x d a e 0 0 hd ha he hh'.buffer)

/-! ### Assignment operators, `clear`, `reshape`, `swap` -/

theorem beforeAssign_ok {ty : Types V} {w : World V} {x y : Nat} {a o : Arr} (hI : Inv ty w) (hdef : TypesOk ty)
    (ha : w.vars x = some a) (ho : w.vars y = some o) (hyx : y ≠ x) :
    ∃ w1 a1, beforeAssign ty x o w = .ok w1 ∧ Inv ty w1 ∧ Step (· = x) w w1 ∧ w1.vars x = some a1 ∧
      w1.nextVar = w.nextVar := by
  unfold beforeAssign
  split
  · rw [get_ok ha, bind_ok]
    by_cases hal : (!a.alloc.eq o.alloc) = true
    · rw [if_pos hal]
      obtain ⟨w1, a1, e1, hI1, hv1, hn1, hal1, hsh1, hnv1, hst1⟩ := deallocate_ok ty hI ha
      have ha1 : w1.vars x = some a1 := by rw [hv1]; simp
      have hx := hI.lt ha
      rw [e1, bind_ok]
      dsimp only
      rw [get_ok ha1, bind_ok]
      refine ⟨_, _, rfl, ?_, hst1.trans (step_setVar _ _ _), setVar_self _ _ _, hnv1⟩
      have hsd : ShapeOk ty a1.shape ∧ (Bare ty a1.shape) := by
        rcases hsh1 with ⟨hb, rfl⟩ | hs
        · have hg := hI.good x a1 ha
          refine ⟨hg.shape, ?_⟩
          rcases hg.own with h | ⟨b, blk, hh, _⟩
          · exact h.2
          · rw [hh.base] at hb; simp at hb
        · rw [hs]; exact ⟨hdef.shape, Or.inl rfl⟩
      have hI1' := hI1.close ha1 (by rw [hal1]; exact hI.self x a ha) (by omega) hn1 hsd.1 hsd.2
      exact hI1'.set_null ha1 hn1 ⟨hn1.buffer, hn1.base, hn1.idle⟩
        (by dsimp only; rw [hal1]; exact hI.self x a ha) hsd.1 hsd.2
    · rw [if_neg hal, bind_ok]
      dsimp only
      rw [get_ok ha, bind_ok]
      have hal := ((Allocator.eq_iff (al := a.alloc) (al' := o.alloc) (by
        rw [hI.self x a ha, hI.self y o ho]; exact Ne.symm hyx)).1 (by simpa using hal)).2.2
      have : ({ a with alloc := { a.alloc with arena := o.alloc.arena } } : Arr) = a := by
        dsimp only; rw [← hal]
      rw [this, setVar_eq_self ha]
      exact ⟨w, a, rfl, hI, Step.refl _ _, ha, rfl⟩
  · exact ⟨w, a, rfl, hI, Step.refl _ _, ha, rfl⟩

theorem copyAssignOpX_safe (hH : Hollow.ok V) {p : Plan V} (hp : p.who ≠ .constructor) {ty : Types V}
    (hdef : TypesOk ty) {w : World V} {x y : Nat} {a o : Arr} (n : Nat) (hI : Inv ty w) (ha : w.vars x = some a)
    (ho : w.vars y = some o) :
    Safe (copyAssignOp ty x y w) (Emptied p ty (· = x) x w) (copyAssignOpX p ty x y w n) := by
  unfold copyAssignOpX
  rw [get_ok ha, bind_ok, get_ok ho, bind_ok]
  by_cases hbb : a.base = o.base
  · rw [if_pos hbb]; exact safe_lift _ _ w n
  rw [if_neg hbb]
  have hyx : y ≠ x := by
    rintro rfl
    rw [ha] at ho
    simp only [Option.some.injEq] at ho
    exact hbb (by rw [ho])
  have e0 : copyAssignOp ty x y w = (beforeAssign ty x o w >>= assignArr true ty x y) := by
    unfold copyAssignOp beforeAssign
    rw [get_ok ha, get_ok ho]
    simp only [bind_ok, if_neg hbb]
    cases ty.propagateCopy
    · rfl
    · simp only [if_true]
      by_cases hal : (!a.alloc.eq o.alloc) = true
      · rw [if_pos hal, if_pos hal]
        simp only [bind_assoc, bind_ok]
        rfl
      · rw [if_neg hal, if_neg hal]
        simp only [bind_ok, get_ok ha]
        rfl
  rw [e0]
  obtain ⟨w1, a1, e1, hI1, hst1, ha1, hnv1⟩ := beforeAssign_ok hI hdef ha ho hyx
  refine safe_seq (f0 := beforeAssign ty x o) (safe_lift _ _ w n) fun w1' n1 e1' => ?_
  rw [e1] at e1'
  simp only [Except.ok.injEq] at e1'
  subst e1'
  exact (assignArrX_safe hH true hp n1 hI1 ha1 (by rw [hst1.vars y hyx]; exact ho)).mono
    fun w2 h2 => h2.after hst1 hnv1

theorem moveAssignOpX_safe (hH : Hollow.ok V) {p : Plan V} (hp : p.who ≠ .constructor) {ty : Types V}
    {w : World V} {x y : Nat} {a o : Arr} (n : Nat) (hI : Inv ty w) (ha : w.vars x = some a)
    (ho : w.vars y = some o) :
    Safe (moveAssignOp ty x y w) (Emptied p ty (· = x) x w) (moveAssignOpX p ty x y w n) := by
  unfold moveAssignOpX
  rw [get_ok ha, bind_ok, get_ok ho, bind_ok]
  split
  · exact safe_lift _ _ w n
  · rename_i h
    simp only [not_or] at h
    have e0 : moveAssignOp ty x y w = assignArr false ty x y w := by
      unfold moveAssignOp
      rw [get_ok ha, get_ok ho]
      simp only [bind_ok]
      rw [if_neg h.1, if_neg h.2.1, if_neg h.2.2]
      rfl
    rw [e0]
    exact assignArrX_safe hH false hp n hI ha ho

theorem clearX_safe (hH : Hollow.ok V) {p : Plan V} (hp : p.who ≠ .constructor) {ty : Types V}
    (hdef : TypesOk ty) {w : World V} {x : Nat} {a : Arr} (n : Nat) (hI : Inv ty w) (ha : w.vars x = some a) :
    Safe (clear ty x w) (Emptied p ty (· = x) x w) (clearX p ty x w n) := by
  unfold clearX clear
  rw [constructX_lift hp]
  obtain ⟨w1, a1, e1, hI1, hv1, hn1, hal1, _, hnv1, hst1⟩ := deallocate_ok ty hI ha
  have ha1 : w1.vars x = some a1 := by rw [hv1]; simp
  have hx := hI.lt ha
  refine safe_seq (f0 := deallocate ty x) (safe_lift _ _ w n) fun w1' n1 e1' => ?_
  rw [e1] at e1'
  simp only [Except.ok.injEq] at e1'
  subst e1'
  refine safe_seq (f0 := setShapeMember x ty.defaultShape) (safe_lift _ _ w1 n1) fun w2 n2 e2 => ?_
  rw [setShapeMember_ok ha1] at e2
  simp only [Except.ok.injEq] at e2
  subst e2
  refine safe_seq (f0 := allocate ty x) ?_ fun w3 n3 _ => safe_lift _ _ w3 n3
  exact (allocateX_safe hH p n2 (hI1.setVar (some { a1 with shape := ty.defaultShape }))
    (setVar_self _ _ _) ⟨hn1.buffer, hn1.base, hn1.idle⟩ (by dsimp only; rw [hal1]; exact hI.self x a ha) hdef.shape
    (by show x < w1.nextVar; omega)).mono fun w3 h3 => h3.after (hst1.trans (step_setVar _ _ _)) hnv1

theorem swapX_safe (hH : Hollow.ok V) {p : Plan V} (hp : p.who ≠ .constructor) {ty : Types V}
    (hdef : TypesOk ty) {w : World V} {x y : Nat} {a o : Arr} (n : Nat) (hI : Inv ty w) (ha : w.vars x = some a)
    (ho : w.vars y = some o) (hsa : SrcOk ty a) (hso : SrcOk ty o)
    (hself : x = y → ty.debug = true → ¬ Pos ty.defaultShape) :
    Safe (swap ty x y w) (Kept p ty (fun z => z = x ∨ z = y) w) (swapX p ty x y w n) := by
  unfold swapX
  split
  · exact safe_lift _ _ w n
  rename_i hps
  have e0 : swap ty x y w = (newMove ty y w >>= fun w1 =>
      (moveAssignOp ty y x w1 >>= moveAssignOp ty x w.nextVar) >>= delete ty w.nextVar) := by
    unfold swap
    rw [if_neg hps]
    simp only [bind_assoc]
  rw [e0]
  have hn := hI.lt ha
  have hny := hI.lt ho
  obtain ⟨w1, an, o1, e1, hI1, hst1, hnv1, hal1, hy1, hr1, htake1, hkeep1⟩ :=
    newMove_ok hI hdef ho (fun _ => hso)
  refine safe_seq (f0 := newMove ty y) ((newMoveX_safe hH hp n hI ho).mono fun w' h => h.mono (by simp))
    fun w1' n1 e1' => ?_
  rw [e1] at e1'
  simp only [Except.ok.injEq] at e1'
  subst e1'
  have ho1 : o1.base = none ∧ o1.shape = ty.defaultShape ∨ o1 = o := by
    by_cases ht : TakesNew ty o
    · left; rw [(htake1 ht).2.1]; exact ⟨rfl, rfl⟩
    · right; exact (hkeep1 ht).1
  have hx1 : ∃ a1, w1.vars x = some a1 ∧ (x ≠ y → a1 = a) ∧ (x = y → a1 = o1) := by
    by_cases hxy : x = y
    · exact ⟨o1, by rw [hxy]; exact hy1, fun h => absurd hxy h, fun _ => rfl⟩
    · refine ⟨a, ?_, fun _ => rfl, fun h => absurd h hxy⟩
      rw [hst1.vars x (by rintro (h | h); omega; exact hxy h)]; exact ha
  obtain ⟨a1, hax1, hane, haeq⟩ := hx1
  have hpre2 : MoveOk ty o1 a1 := by
    by_cases hxy : x = y
    · rw [haeq hxy]
      refine ⟨?_, fun h => absurd rfl h⟩
      intro hb _ hd
      rcases ho1 with ⟨_, h⟩ | h
      · rw [h]; exact hself hxy hd
      · rw [h] at hb ⊢; exact (hso hb).1
    · rw [hane hxy]; exact MoveOk.of_src hsa
  obtain ⟨w2, o2, a2, e2, hI2, hst2, hnv2, hx2, hr2, _⟩ := moveAssignOp_ok hI1 hdef hy1 hax1 hpre2
  have hnn : w.nextVar ≠ y ∧ w.nextVar ≠ x := by omega
  have hn2 : w2.vars w.nextVar = some an := by
    rw [hst2.vars _ (by rintro (h | h); exact hnn.1 h; exact hnn.2 h)]; exact hr1.var
  have hst1' : Step (fun z => (z = x ∨ z = y) ∨ z = w.nextVar) w w1 :=
    hst1.mono fun z hz => hz.elim Or.inr fun h => Or.inl (Or.inr h)
  refine safe_scope (f0 := fun w1 => moveAssignOp ty y x w1 >>= moveAssignOp ty x w.nextVar)
    (Q := fun w' => Kept p ty (fun z => (z = x ∨ z = y) ∨ z = w.nextVar) w1 w' ∧ w'.vars w.nextVar = some an ∧
      p.who = .allocator) ?_ ?_
  · refine safe_seq (f0 := moveAssignOp ty y x) ?_ fun w2' n2 e2' => ?_
    · exact (moveAssignOpX_safe hH hp n1 hI1 hy1 hax1).mono fun w' h =>
        ⟨h.kept.mono fun z hz => Or.inl (Or.inr hz), by rw [h.step.vars _ hnn.1]; exact hr1.var, h.who⟩
    · rw [e2] at e2'
      simp only [Except.ok.injEq] at e2'
      subst e2'
      refine (moveAssignOpX_safe hH hp n2 hI2 hx2 hn2).mono fun w' h =>
        ⟨⟨h.inv, ?_, ?_, fun hw => absurd h.who hw⟩, ?_, h.who⟩
      · exact (hst2.mono fun z hz => Or.inl hz.symm).trans (h.step.mono fun z hz => Or.inl (Or.inl hz))
      · rw [h.next, hnv2]
      · rw [h.step.vars _ hnn.2]; exact hn2
  · intro w' h
    exact Kept.delete (hI.freshVar _ le_rfl) hst1' (by omega) (fun hw => absurd h.2.2 hw) h.1 h.2.1

theorem reshapeX_safe (hH : Hollow.ok V) {p : Plan V} (hp : p.who ≠ .constructor) {ty : Types V}
    (hdef : TypesOk ty) {w : World V} {x : Nat} {a : Arr} {s : Shape} (n : Nat) (hI : Inv ty w)
    (ha : w.vars x = some a) (hnh : NotHollow a) (hs : ShapeOk ty s) (hpre : ReshapeOk ty a s) :
    Safe (reshape ty x s w) (Kept p ty (· = x) w) (reshapeX p ty x s w n) := by
  have hres : s.resolve.resolve = s.resolve := resolve_of_known (resolve_known s)
  unfold reshapeX
  rw [get_ok ha, bind_ok]
  dsimp only
  by_cases hsame : a.shape = s.resolve
  · rw [if_pos hsame]
    have : reshape ty x s w = .ok w := by
      unfold reshape
      rw [get_ok ha, bind_ok]
      dsimp only
      rw [if_pos hsame]
    rw [this]
    exact safe_lift .ok _ w n
  rw [if_neg hsame]
  have e0 : reshape ty x s w = (newShape ty s.resolve w >>= fun w1 =>
      (w1.get w.nextVar >>= fun new => w1.get x >>= fun a =>
        forEachPair ty a.shape a.base (Shape.clamp s.resolve a.shape)
          (new.base.map fun p => (p.1, p.2 + s.resolve.flatOffset (Shape.clamp s.resolve a.shape).mins))
          (moveAssignAt ty) w1 >>= moveAssignOp ty x w.nextVar) >>= delete ty w.nextVar) := by
    unfold reshape
    rw [get_ok ha, bind_ok]
    dsimp only
    rw [if_neg hsame]
    simp only [bind_assoc]
  rw [e0]
  obtain ⟨w1, an, e1, hI1, hst1, hnv1, hv1, hsh1, hal1, hh1, hval1⟩ :=
    newShapeAlloc_ok hI hs.resolve ty.defaultAlloc
  rw [hres] at hsh1
  have hx := hI.lt ha
  have hxn : x ≠ w.nextVar := by omega
  have ha1 : w1.vars x = some a := by rw [hst1.vars x hxn]; exact ha
  refine safe_seq (f0 := newShape ty s.resolve)
    ((newShapeAllocX_safe hH hp n hI hs.resolve ty.defaultAlloc).mono fun w' h => h.mono (by simp))
    fun w1' n1 e1' => ?_
  have e1' : newShapeAlloc ty s.resolve ty.defaultAlloc w = .ok w1' := e1'
  rw [e1] at e1'
  simp only [Except.ok.injEq] at e1'
  subst e1'
  obtain ⟨w2, e2, hI2, hst2, hv2, hnv2, hval2, hval2'⟩ := reshape_move (s := s.resolve) hI1 hxn ha1 hv1 hsh1
    (by
      intro hb hd
      apply hpre _ hd
      rcases hb with hb | hb
      · exact Or.inl hb
      · right
        have := hh1 hb
        rw [hsh1, resolve_pos] at this
        exact this) hnh hh1
  refine safe_scope (f0 := fun w1 => w1.get w.nextVar >>= fun new => w1.get x >>= fun a =>
        forEachPair ty a.shape a.base (Shape.clamp s.resolve a.shape)
          (new.base.map fun p => (p.1, p.2 + s.resolve.flatOffset (Shape.clamp s.resolve a.shape).mins))
          (moveAssignAt ty) w1 >>= moveAssignOp ty x w.nextVar)
    (Q := fun w' => Kept p ty (fun z => z = x ∨ z = w.nextVar) w1 w' ∧ w'.vars w.nextVar = some an) ?_ ?_
  · unfold reshapeInto
    rw [get_ok hv1, bind_ok, get_ok ha1, bind_ok, bind_ok, bind_ok]
    refine safe_seq (f0 := forEachPair ty a.shape a.base (Shape.clamp s.resolve a.shape)
          (an.base.map fun p => (p.1, p.2 + s.resolve.flatOffset (Shape.clamp s.resolve a.shape).mins))
          (moveAssignAt ty)) ?_ fun w2' n2 e2' => ?_
    · have hlen : List.length s.resolve = List.length a.shape := by
        rw [← hsh1]
        exact (hI1.good _ _ hv1).shape.rank.trans (hI.good x a ha).shape.rank.symm
      have key := pairX_safe false p (soff := 0)
        (doff := s.resolve.flatOffset (Shape.clamp s.resolve a.shape).mins) n1 hI1 ha1 hv1
        (src := a.shape) (dst := Shape.clamp s.resolve a.shape)
        (by rw [clamp_length hlen]; exact hlen.symm) (hI.good x a ha).shape.nonNeg
        (fun hb hbn i hi => by
          have hi := (inBox_clamp hlen).1 hi
          refine ⟨refers_self hb hi.2, hbn, i, by rw [hsh1]; exact hi.1, ?_⟩
          rw [hsh1, flatOffset_eq, offset_clamp hlen (inBox_length hi.1)])
      have hm : (a.base.map fun q => (q.1, q.2 + 0)) = a.base := by
        cases a.base <;> simp
      rw [hm] at key
      refine key.mono fun w' h => ⟨h.1.mono fun z hz => ?_, by rw [h.2]; exact hv1⟩
      rcases hz with hz | hz
      · exact Or.inr hz
      · exact Or.inl hz.2
    · rw [e2] at e2'
      simp only [Except.ok.injEq] at e2'
      subst e2'
      refine (moveAssignOpX_safe hH hp n2 hI2 (by rw [hv2]; exact ha1) (by rw [hv2]; exact hv1)).mono
        fun w' h => ⟨⟨h.inv, hst2.trans (h.step.mono fun z hz => Or.inl hz), ?_, fun hw => absurd h.who hw⟩, ?_⟩
      · rw [h.next, hnv2]
      · rw [h.step.vars _ (Ne.symm hxn), hv2]; exact hv1
  · intro w' h
    exact Kept.delete (hI.freshVar _ le_rfl) (hst1.mono fun z hz => Or.inr hz) (by omega) (fun _ => hst1.vars) h.1 h.2

/-- `auto_allocator` is not used. -/
theorem Inv.heapOnly {ty : Types V} {w : World V} (hI : Inv ty w) (h0 : ty.inlineSize = 0) {x : Nat} {a : Arr}
    (ha : w.vars x = some a) : a.alloc.allocated = false := by
  have hg := hI.good x a ha
  by_cases hb : a.buffer = none
  · rcases hg.own with ⟨hn, _⟩ | ⟨b, blk, hh, _⟩
    · exact hn.idle
    · rw [hh.buffer] at hb; simp at hb
  · obtain ⟨h1, h2⟩ := hg.fits hb
    rw [h2, h0]
    simp only [decide_eq_false_iff_not]
    omega
/-- If `reshape` takes over the memory of the local variable, only its constructor throws. -/
theorem reshapeX_strong (hH : Hollow.ok V) {p : Plan V} (hp : p.who ≠ .constructor) (hp' : p.who ≠ .assignment)
    {ty : Types V} (hdef : TypesOk ty) {w : World V} {x : Nat} {a : Arr} {s : Shape} (n : Nat) (hI : Inv ty w)
    (ha : w.vars x = some a) (hnh : NotHollow a) (hs : ShapeOk ty s) (hpre : ReshapeOk ty a s)
    (hal : ty.propagateMove = true ∨ (ty.inlineSize = 0 ∧ a.alloc.arena = ty.defaultAlloc)) :
    Safe (reshape ty x s w) (Kept p ty (fun _ => False) w) (reshapeX p ty x s w n) := by
  have hres : s.resolve.resolve = s.resolve := resolve_of_known (resolve_known s)
  unfold reshapeX
  rw [get_ok ha, bind_ok]
  dsimp only
  by_cases hsame : a.shape = s.resolve
  · rw [if_pos hsame]
    have : reshape ty x s w = .ok w := by
      unfold reshape
      rw [get_ok ha, bind_ok]
      dsimp only
      rw [if_pos hsame]
    rw [this]
    exact safe_lift .ok _ w n
  rw [if_neg hsame]
  have e0 : reshape ty x s w = (newShape ty s.resolve w >>= fun w1 =>
      (w1.get w.nextVar >>= fun new => w1.get x >>= fun a =>
        forEachPair ty a.shape a.base (Shape.clamp s.resolve a.shape)
          (new.base.map fun p => (p.1, p.2 + s.resolve.flatOffset (Shape.clamp s.resolve a.shape).mins))
          (moveAssignAt ty) w1 >>= moveAssignOp ty x w.nextVar) >>= delete ty w.nextVar) := by
    unfold reshape
    rw [get_ok ha, bind_ok]
    dsimp only
    rw [if_neg hsame]
    simp only [bind_assoc]
  rw [e0]
  obtain ⟨w1, an, e1, hI1, hst1, hnv1, hv1, hsh1, hal1, hh1, hval1⟩ :=
    newShapeAlloc_ok hI hs.resolve ty.defaultAlloc
  rw [hres] at hsh1
  have hx := hI.lt ha
  have hxn : x ≠ w.nextVar := by omega
  have ha1 : w1.vars x = some a := by rw [hst1.vars x hxn]; exact ha
  refine safe_seq (f0 := newShape ty s.resolve)
    (newShapeAllocX_safe hH hp n hI hs.resolve ty.defaultAlloc) fun w1' n1 e1' => ?_
  have e1' : newShapeAlloc ty s.resolve ty.defaultAlloc w = .ok w1' := e1'
  rw [e1] at e1'
  simp only [Except.ok.injEq] at e1'
  subst e1'
  obtain ⟨w2, e2, hI2, hst2, hv2, hnv2, hval2, hval2'⟩ := reshape_move (s := s.resolve) hI1 hxn ha1 hv1 hsh1
    (by
      intro hb hd
      apply hpre _ hd
      rcases hb with hb | hb
      · exact Or.inl hb
      · right
        have := hh1 hb
        rw [hsh1, resolve_pos] at this
        exact this) hnh hh1
  refine safe_scope (f0 := fun w1 => w1.get w.nextVar >>= fun new => w1.get x >>= fun a =>
        forEachPair ty a.shape a.base (Shape.clamp s.resolve a.shape)
          (new.base.map fun p => (p.1, p.2 + s.resolve.flatOffset (Shape.clamp s.resolve a.shape).mins))
          (moveAssignAt ty) w1 >>= moveAssignOp ty x w.nextVar) (Q := fun _ => False) ?_ (fun _ h => h.elim)
  unfold reshapeInto
  rw [get_ok hv1, bind_ok, get_ok ha1, bind_ok, bind_ok, bind_ok]
  dsimp only
  have eF : assignFromX false p ty = fun bs bd q => lift (moveAssignAt ty bs bd q) := by
    funext bs bd q
    rw [assignFromX_lift hp']
    rfl
  rw [eF, forEachPairX_lift]
  refine safe_seq (f0 := forEachPair ty a.shape a.base (Shape.clamp s.resolve a.shape)
        (an.base.map fun p => (p.1, p.2 + s.resolve.flatOffset (Shape.clamp s.resolve a.shape).mins))
        (moveAssignAt ty)) (safe_lift _ _ w1 n1) fun w2' n2 e2' => ?_
  rw [e2] at e2'
  simp only [Except.ok.injEq] at e2'
  subst e2'
  have ha2 : w2.vars x = some a := by rw [hv2]; exact ha1
  have hn2 : w2.vars w.nextVar = some an := by rw [hv2]; exact hv1
  unfold moveAssignOpX
  rw [get_ok ha2, bind_ok, get_ok hn2, bind_ok, if_pos]
  · exact safe_lift _ _ w2 n2
  · right
    rcases hal with h | ⟨h0, h⟩
    · exact Or.inl h
    · right
      rw [Allocator.eq_iff (by rw [hI2.self x a ha2, hI2.self _ an hn2]; exact hxn)]
      exact ⟨hI2.heapOnly h0 ha2, hI2.heapOnly h0 hn2, h.trans hal1.symm⟩

theorem makeFromX_safe (hH : Hollow.ok V) (keep : Bool) {p : Plan V} (hp : p.who ≠ .constructor) {ty : Types V}
    {w : World V} {y : Nat} {o : Arr} {src : Shape} {off : Int} {s : Shape} (al n : Nat) (hI : Inv ty w)
    (ho : w.vars y = some o) (hv : ViewOk ty o src off s) :
    Safe (makeFrom keep ty y src off s al w) (Kept p ty (fun z => keep = false ∧ z = y) w)
      (makeFromX keep p ty y src off s al w n) := by
  unfold makeFrom makeFromX
  dsimp only
  rw [get_ok ho, bind_ok, bind_ok]
  obtain ⟨w1, a1, e1, hI1, hst1, hnv1, hv1, hsh1, hal1, hh1, hval1⟩ := newShapeAlloc_ok hI hv.shape al
  have hlt := hI.lt ho
  have hyn : y ≠ w.nextVar := by omega
  have ho1 : w1.vars y = some o := by rw [hst1.vars y hyn]; exact ho
  have hbox : ∀ i, InBox a1.shape i ↔ InBox s i := fun i => by rw [hsh1]; exact inBox_resolve s i
  refine safe_seq (f0 := newShapeAlloc ty s al)
    ((newShapeAllocX_safe hH hp n hI hv.shape al).mono fun w' h => h.mono (by simp)) fun w1' n1 e1' => ?_
  rw [e1] at e1'
  simp only [Except.ok.injEq] at e1'
  subst e1'
  refine safe_unwinding (Q := fun w' => Kept p ty (fun z => (keep = false ∧ z = y) ∨ z = w.nextVar) w1 w' ∧
    w'.vars w.nextVar = some a1) ?_ ?_
  · rw [get_ok hv1, bind_ok, bind_ok]
    have key := assignElementsX_safe keep p (soff := off) (doff := 0) n1 hI1 ho1 hv1 (src := src) (dst := a1.shape)
      (by rw [hsh1, resolve_length]; exact hv.rank) hv.nonNeg
      (fun _ hb i hi => ⟨(hv.sub i ((hbox i).1 hi)).2, refers_self hb hi⟩)
    have hm : (a1.base.map fun q => (q.1, q.2 + 0)) = a1.base := by
      cases a1.base <;> simp
    rw [hm] at key
    exact key.mono fun w' h => ⟨h.1.mono fun z hz => hz.symm, by rw [h.2]; exact hv1⟩
  · intro w' h
    exact Kept.delete (hI.freshVar _ le_rfl) (hst1.mono fun z hz => Or.inr hz) (by omega) (fun _ => hst1.vars) h.1 h.2

/-! ### Statements -/

theorem execX_safe (hH : Hollow.ok V) {p : Plan V} (hp : p.who ≠ .constructor) {ty : Types V} (hdef : TypesOk ty)
    {w : World V} (n : Nat) (hI : Inv ty w) {c : Cmd V} (hc : Allowed ty w c) :
    Safe (exec ty c w) (Kept p ty (Changes w c) w) (execX p ty c w n) := by
  cases c with
  | new => exact (newShapeAllocX_safe hH hp n hI hdef.shape ty.defaultAlloc).mono fun _ h => h.mono (by simp)
  | newAlloc al => exact (newShapeAllocX_safe hH hp n hI hdef.shape al).mono fun _ h => h.mono (by simp)
  | newShape s => exact (newShapeAllocX_safe hH hp n hI hc ty.defaultAlloc).mono fun _ h => h.mono (by simp)
  | newShapeAlloc s al => exact (newShapeAllocX_safe hH hp n hI hc al).mono fun _ h => h.mono (by simp)
  | newFill s v => exact (newFillAllocX_safe hH hp hdef n hI hc v ty.defaultAlloc).mono fun _ h => h.mono (by simp)
  | newFillAlloc s v al => exact (newFillAllocX_safe hH hp hdef n hI hc v al).mono fun _ h => h.mono (by simp)
  | newCopy y =>
    obtain ⟨o, ho, _⟩ := with_iff.1 hc
    exact (newCopyX_safe hH hp hdef n hI ho).mono fun _ h => h.mono (by simp)
  | newCopyAlloc y al =>
    obtain ⟨o, ho, _⟩ := with_iff.1 hc
    exact (newCopyAllocX_safe hH hp hdef n hI ho al).mono fun _ h => h.mono (by simp)
  | newMove y =>
    obtain ⟨o, ho, _⟩ := with_iff.1 hc
    exact (newMoveX_safe hH hp n hI ho).mono fun _ h => h.mono (by simp)
  | newMoveAlloc y al =>
    obtain ⟨o, ho, _⟩ := with_iff.1 hc
    exact (newMoveAllocX_safe hH hp n hI ho al).mono fun _ h => h.mono (by simp)
  | delete x => exact safe_lift _ _ w n
  | copyAssign x y =>
    obtain ⟨a, ha, h⟩ := with_iff.1 hc
    obtain ⟨o, ho, _⟩ := with_iff.1 h
    exact (copyAssignOpX_safe hH hp hdef n hI ha ho).mono fun _ h => h.kept
  | moveAssign x y =>
    obtain ⟨a, ha, h⟩ := with_iff.1 hc
    obtain ⟨o, ho, _⟩ := with_iff.1 h
    exact (moveAssignOpX_safe hH hp n hI ha ho).mono fun _ h => h.kept.mono fun z hz => Or.inl hz
  | assignCopy x y =>
    obtain ⟨a, ha, h⟩ := with_iff.1 hc
    obtain ⟨o, ho, _⟩ := with_iff.1 h
    exact (assignArrX_safe hH true hp n hI ha ho).mono fun _ h => h.kept
  | assignMove x y =>
    obtain ⟨a, ha, h⟩ := with_iff.1 hc
    obtain ⟨o, ho, _⟩ := with_iff.1 h
    exact (assignArrX_safe hH false hp n hI ha ho).mono fun _ h => h.kept.mono fun z hz => Or.inl hz
  | assignFill x s v =>
    obtain ⟨a, ha, _, hs⟩ := with_iff.1 hc
    exact (assignFillX_safe hH hp n hI ha hs v).mono fun _ h => h.kept
  | clear x =>
    obtain ⟨a, ha, _⟩ := with_iff.1 hc
    exact (clearX_safe hH hp hdef n hI ha).mono fun _ h => h.kept
  | reshape x s =>
    obtain ⟨a, ha, hn, hs, hr⟩ := with_iff.1 hc
    exact reshapeX_safe hH hp hdef n hI ha hn hs hr
  | swap x y =>
    obtain ⟨a, ha, h⟩ := with_iff.1 hc
    obtain ⟨o, ho, hs, hs', hself⟩ := with_iff.1 h
    exact swapX_safe hH hp hdef n hI ha ho hs hs' hself
  | write x i v =>
    obtain ⟨a, ha, hb, hi⟩ := with_iff.1 hc
    exact writeX_safe p n hI ha hb hi v
  | makeCopy y s al =>
    obtain ⟨o, ho, hv⟩ := with_iff.1 hc
    show Safe (makeFromArray true ty y s al w) _ (makeFromArrayX true p ty y s al w n)
    unfold makeFromArrayX
    rw [makeFromArray_eq ho, get_ok ho, bind_ok]
    exact (makeFromX_safe hH true hp al n hI ho hv).mono fun _ h => h.mono (by simp)
  | makeCopyRef y src off s al =>
    obtain ⟨o, ho, hv⟩ := with_iff.1 hc
    exact (makeFromX_safe hH true hp al n hI ho hv).mono fun _ h => h.mono (by simp)
  | makeMove y s al =>
    obtain ⟨o, ho, hv⟩ := with_iff.1 hc
    show Safe (makeFromArray false ty y s al w) _ (makeFromArrayX false p ty y s al w n)
    unfold makeFromArrayX
    rw [makeFromArray_eq ho, get_ok ho, bind_ok]
    exact (makeFromX_safe hH false hp al n hI ho hv).mono fun _ h => h.mono fun z hz => Or.inr hz.2
  | makeMoveRef y src off s al =>
    obtain ⟨o, ho, hv⟩ := with_iff.1 hc
    exact (makeFromX_safe hH false hp al n hI ho hv).mono fun _ h => h.mono fun z hz => Or.inr hz.2
  | makeMoveRvalue y s al =>
    obtain ⟨o, ho, hs, hv⟩ := with_iff.1 hc
    show Safe (makeMoveRvalue ty y s al w) _ (makeMoveRvalueX p ty y s al w n)
    unfold makeMoveRvalue makeMoveRvalueX
    rw [get_ok ho, bind_ok, bind_ok]
    have hyn : w.nextVar ≠ o.alloc.self := by have := hI.lt ho; rw [hI.self y o ho]; omega
    have hcond : (o.shape = s ∧ Allocator.eq ⟨al, w.nextVar, false⟩ o.alloc = true) ↔
        o.shape = s ∧ SameAlloc o al := by
      rw [Allocator.eq_iff hyn]; simp [SameAlloc]
    by_cases heq : o.shape = s ∧ SameAlloc o al
    · rw [if_pos (hcond.2 heq), if_pos (hcond.2 heq)]
      exact (newCopyX_safe hH hp hdef n hI ho).mono fun _ h => h.mono (by simp)
    · rw [if_neg fun h => heq (hcond.1 h), if_neg fun h => heq (hcond.1 h)]
      unfold makeFromArrayX
      rw [makeFromArray_eq ho, get_ok ho, bind_ok]
      exact (makeFromX_safe hH false hp al n hI ho (hv heq)).mono fun _ h => h.mono fun z hz => Or.inr hz.2
  | copyRef y src soff x dst doff =>
    obtain ⟨o, ho, h⟩ := with_iff.1 hc
    obtain ⟨a, ha, hv⟩ := with_iff.1 h
    exact (assignRefX_safe true p n hI ho ha hv).mono fun _ h => h.mono (by simp [Changes])
  | moveRef y src soff x dst doff =>
    obtain ⟨o, ho, h⟩ := with_iff.1 hc
    obtain ⟨a, ha, hv⟩ := with_iff.1 h
    exact (assignRefX_safe false p n hI ho ha hv).mono fun _ h => h.mono (by simp [Changes])
  | forEach x s off f =>
    obtain ⟨a, ha, hv⟩ := with_iff.1 hc
    exact forEachRefX_safe p f n hI ha hv
  | transform x s off f =>
    obtain ⟨a, ha, hv⟩ := with_iff.1 hc
    exact transformRefX_safe p f n hI ha hv

/-- A statement left by an exception. -/
theorem execX_ok (hH : Hollow.ok V) {p : Plan V} (hp : p.who ≠ .constructor) {ty : Types V} (hdef : TypesOk ty)
    {w : World V} (n : Nat) (hI : Inv ty w) {c : Cmd V} (hc : Allowed ty w c) :
    ∃ l, execX p ty c w n = .ok l ∧
      match l with
      | .returned w' _ => exec ty c w = .ok w'
      | .thrown w' => Kept p ty (Changes w c) w w' := by
  obtain ⟨w0, e0, h1, h2, h3⟩ := exec_ok hdef hI hc
  have key := execX_safe hH hp hdef n hI hc
  cases h : execX p ty c w n with
  | error f =>
    rw [h] at key
    have key : exec ty c w = .error f := key
    rw [e0] at key
    simp at key
  | ok l =>
    rw [h] at key
    refine ⟨l, rfl, ?_⟩
    cases l with
    | returned w' m => exact key
    | thrown w' => exact key

/-- A statement inside `try`. -/
theorem execTry_ok (hH : Hollow.ok V) {ty : Types V} (hdef : TypesOk ty) {w : World V} (hI : Inv ty w) {s : Stmt V}
    (hp : ∀ p n c, s = .throwing p n c → p.who ≠ .constructor) (hc : Allowed ty w s.cmd) :
    ∃ w', execTry ty s w = .ok w' ∧ Inv ty w' ∧ Step (Changes w s.cmd) w w' ∧ w.nextVar ≤ w'.nextVar := by
  cases s with
  | calm c => exact exec_ok hdef hI hc
  | throwing p n c =>
    obtain ⟨w0, e0, h1, h2, h3⟩ := exec_ok hdef hI (c := c) hc
    obtain ⟨l, e, hl⟩ := execX_ok hH (hp p n c rfl) hdef n hI (c := c) hc
    unfold execTry
    dsimp only
    rw [e]
    cases l with
    | returned w' m =>
      dsimp only at hl
      rw [e0] at hl
      simp only [Except.ok.injEq] at hl
      subst hl
      exact ⟨w0, rfl, h1, h2, h3⟩
    | thrown w' => exact ⟨w', rfl, hl.inv, hl.step, hl.next⟩

end Nda
