import Verif.Lemmas.Relate
import Verif.Model.ArrayCompare
import Verif.Props.Array
/-
C70: the functions of `array` do not look at the values of elements.
-/
namespace Nda
open Spec

variable {V U : Type}

/-! ### Running two programs that differ only in values -/

/-- C70: of two programs that differ only in values that correspond to each other (by any relation `R`, also between
different types), both go wrong, and in the same way, or both succeed.  Then they have the same arrays in the same memory,
have made the same calls to member functions of the element type, and the values of all elements correspond. -/
theorem C70_related (R : V → U → Prop) (ty : Types V) (tz : Types U) (ht : TypesRel R ty tz) (p : List (Cmd V))
    (q : List (Cmd U)) (hpq : List.Forall₂ (CmdRel R) p q) :
    (∃ f, execAll ty p World.start = .error f ∧ execAll tz q World.start = .error f) ∨
    ∃ w z, execAll ty p World.start = .ok w ∧ execAll tz q World.start = .ok z ∧ z.vars = w.vars ∧ z.calls = w.calls ∧
      (∀ x i u, elem w x i = .ok u → ∃ v, elem z x i = .ok v ∧ R u v) ∧
      (∀ x i v, elem z x i = .ok v → ∃ u, elem w x i = .ok u ∧ R u v) ∧
      (∀ x i f, elem w x i = .error f ↔ elem z x i = .error f) := by
  have h := execAll_rel ht hpq start_rel
  cases h1 : execAll ty p World.start with
  | error f =>
    cases h2 : execAll tz q World.start with
    | error g =>
      rw [h1, h2] at h
      exact .inl ⟨f, rfl, by rw [show f = g from h]⟩
    | ok z => rw [h1, h2] at h; exact h.elim
  | ok w =>
    cases h2 : execAll tz q World.start with
    | error g => rw [h1, h2] at h; exact h.elim
    | ok z =>
      rw [h1, h2] at h
      have h : WorldRel R w z := h
      refine .inr ⟨w, z, rfl, rfl, h.vars, h.calls, fun x i u hu => ?_, fun x i v hv => ?_, fun x i f => ?_⟩ <;>
        have e := elem_rel x i h
      · rw [hu] at e
        cases hz : elem z x i <;> rw [hz] at e
        · exact e.elim
        · exact ⟨_, rfl, e⟩
      · rw [hv] at e
        cases hz : elem w x i <;> rw [hz] at e
        · exact e.elim
        · exact ⟨_, rfl, e⟩
      · cases ha : elem w x i <;> cases hb : elem z x i <;> rw [ha, hb] at e <;> first | exact e.elim | simp
        rw [show _ = _ from e]

/-- Applying `h` to the values of a statement. -/
def Cmd.mapValues (h : V → U) : Cmd V → Option (Cmd U)
  | .new => some .new
  | .newAlloc al => some (.newAlloc al)
  | .newShape s => some (.newShape s)
  | .newShapeAlloc s al => some (.newShapeAlloc s al)
  | .newFill s v => some (.newFill s (h v))
  | .newFillAlloc s v al => some (.newFillAlloc s (h v) al)
  | .newCopy y => some (.newCopy y)
  | .newCopyAlloc y al => some (.newCopyAlloc y al)
  | .newMove y => some (.newMove y)
  | .newMoveAlloc y al => some (.newMoveAlloc y al)
  | .delete x => some (.delete x)
  | .copyAssign x y => some (.copyAssign x y)
  | .moveAssign x y => some (.moveAssign x y)
  | .assignCopy x y => some (.assignCopy x y)
  | .assignMove x y => some (.assignMove x y)
  | .assignFill x s v => some (.assignFill x s (h v))
  | .clear x => some (.clear x)
  | .reshape x s => some (.reshape x s)
  | .swap x y => some (.swap x y)
  | .write x i v => some (.write x i (h v))
  | .makeCopy y s al => some (.makeCopy y s al)
  | .makeCopyRef y src off s al => some (.makeCopyRef y src off s al)
  | .makeMove y s al => some (.makeMove y s al)
  | .makeMoveRef y src off s al => some (.makeMoveRef y src off s al)
  | .makeMoveRvalue y s al => some (.makeMoveRvalue y s al)
  | .copyRef y src soff x dst doff => some (.copyRef y src soff x dst doff)
  | .moveRef y src soff x dst doff => some (.moveRef y src soff x dst doff)
  | .forEach _ _ _ _ => none
  | .transform x s off f => some (.transform x s off fun i => h (f i))

/-- C70: replacing every value `v` of a program by `h v` replaces the value of every element by its image under `h`.
So a test of a program whose values are all different shows what the program does with any values.  (The functions of
`for_each_value` are programs themselves; for these see `C70_related`.) -/
theorem C70_map (h : V → U) (ty : Types V) (tz : Types U) (ht : TypesRel (fun u v => v = h u) ty tz) (p : List (Cmd V))
    (q : List (Cmd U)) (hpq : p.mapM (Cmd.mapValues h) = some q) (x : Nat) (i : Index) :
    result tz q x i = (result ty p x i).map h := by
  have hr : List.Forall₂ (CmdRel fun u v => v = h u) p q := by
    induction p generalizing q with
    | nil =>
      simp only [List.mapM_nil, Option.pure_def, Option.some.injEq] at hpq
      subst hpq
      exact .nil
    | cons c p ih =>
      rw [List.mapM_cons] at hpq
      cases hc : c.mapValues h with
      | none => rw [hc] at hpq; cases hpq
      | some d =>
        cases hm : p.mapM (Cmd.mapValues h) with
        | none => rw [hc, hm] at hpq; cases hpq
        | some m =>
          rw [hc, hm] at hpq
          injection hpq with hpq
          subst hpq
          refine .cons ?_ (ih m hm)
          cases c <;> simp only [Cmd.mapValues, Option.some.injEq, reduceCtorEq] at hc <;> subst hc <;> constructor <;> simp
  have hx := execAll_rel ht hr start_rel
  unfold result
  have := Both.bind hx fun w z hwz => elem_rel x i hwz
  revert this
  cases (execAll ty p World.start >>= fun w => elem w x i) <;>
    cases (execAll tz q World.start >>= fun w => elem w x i) <;> intro this <;> first | exact this.elim | skip
  · exact congrArg _ (show _ = _ from this).symm
  · exact congrArg Except.ok this

/-- Two statements are the same up to values. -/
abbrev SameUpToValues (p q : List (Cmd V)) : Prop := List.Forall₂ (CmdRel fun _ _ => True) p q

/-- C70: whether and how a program goes wrong, which arrays it has and of which shapes, and which member functions of the
element type it calls does not depend on values. -/
theorem C70_control (ty : Types V) (d : V) (m : V → V) (j : V) (p q : List (Cmd V)) (hpq : SameUpToValues p q) :
    (∃ f, execAll ty p World.start = .error f ∧
      execAll { ty with defaultValue := d, moved := m, junk := j } q World.start = .error f) ∨
    ∃ w z, execAll ty p World.start = .ok w ∧
      execAll { ty with defaultValue := d, moved := m, junk := j } q World.start = .ok z ∧
      z.vars = w.vars ∧ z.calls = w.calls := by
  rcases C70_related (fun _ _ => True) ty { ty with defaultValue := d, moved := m, junk := j }
    ⟨rfl, rfl, rfl, rfl, rfl, rfl, rfl, rfl, trivial, fun _ _ _ => trivial⟩ p q hpq with h | ⟨w, z, h1, h2, h3, h4, -⟩
  · exact .inl h
  · exact .inr ⟨w, z, h1, h2, h3, h4⟩

/-- The functions of a statement do not leave `P`. -/
def Cmd.Keeps (P : V → Prop) : Cmd V → Prop
  | .newFill _ v => P v
  | .newFillAlloc _ v _ => P v
  | .assignFill _ _ v => P v
  | .write _ _ v => P v
  | .forEach _ _ _ f => ∀ k v, P v → P (f k v)
  | .transform _ _ _ f => ∀ i, P (f i)
  | _ => True

theorem Cmd.Keeps.rel {P : V → Prop} {c : Cmd V} (h : c.Keeps P) : CmdRel (fun u v => u = v ∧ P u) c c := by
  cases c <;> constructor <;> first | exact ⟨rfl, h⟩ | skip
  · rintro k u _ ⟨rfl, hu⟩
    exact ⟨rfl, h k u hu⟩
  · exact fun i => ⟨rfl, h i⟩

/-- C70: no value appears out of thin air: what holds of the values of a program, of `T()` and of moved-from objects, and
is kept by the functions it calls, holds of every element. -/
theorem C70_provenance (P : V → Prop) (ty : Types V) (hd : P ty.defaultValue) (hm : ∀ v, P v → P (ty.moved v))
    (p : List (Cmd V)) (hp : ∀ c ∈ p, c.Keeps P) (x : Nat) (i : Index) (v : V) (h : result ty p x i = .ok v) : P v := by
  have hr : List.Forall₂ (CmdRel fun u v => u = v ∧ P u) p p := List.forall₂_same.2 fun c hc => (hp c hc).rel
  have ht : TypesRel (fun u v => u = v ∧ P u) ty ty :=
    ⟨rfl, rfl, rfl, rfl, rfl, rfl, rfl, rfl, ⟨rfl, hd⟩, fun u v huv => by
      obtain ⟨rfl, hu⟩ := huv
      exact ⟨rfl, hm u hu⟩⟩
  have := Both.bind (execAll_rel ht hr start_rel) fun w z hwz => elem_rel x i hwz
  unfold result at h
  rw [h] at this
  exact this.2

theorem CmdRel.refl (c : Cmd V) : CmdRel Eq c c := by
  cases c <;> constructor <;> simp

/-- C70: the contents of uninitialised memory can not be observed. -/
theorem C70_no_junk (ty : Types V) (j : V) (p : List (Cmd V)) (x : Nat) (i : Index) :
    result { ty with junk := j } p x i = result ty p x i := by
  have ht : TypesRel Eq ty { ty with junk := j } :=
    ⟨rfl, rfl, rfl, rfl, rfl, rfl, rfl, rfl, rfl, fun u v huv => by rw [huv]⟩
  have hr : List.Forall₂ (CmdRel Eq) p p := List.forall₂_same.2 fun c _ => CmdRel.refl c
  have := Both.bind (execAll_rel ht hr start_rel) fun w z hwz => elem_rel x i hwz
  unfold result
  revert this
  cases (execAll ty p World.start >>= fun w => elem w x i) <;>
    cases (execAll { ty with junk := j } p World.start >>= fun w => elem w x i) <;> intro this <;>
    first | exact this.elim | skip
  · exact congrArg _ (show _ = _ from this).symm
  · exact congrArg _ (show _ = _ from this).symm

/-! ### Comparisons -/

theorem compareValues_rel {R : V → U → Prop} {ty : Types V} {tz : Types U} (ht : TypesRel R ty tz) {ne : V → V → Bool}
    {nf : U → U → Bool} (hne : ∀ u u' v v', R u v → R u' v' → nf v v' = ne u u') (r : Bool) (s : Shape) (p : Ptr)
    (t : Shape) (q : Ptr) {w : World V} {z : World U} (h : WorldRel R w z) (b : Bool) :
    Both Eq (compareValues ty ne r s p t q w b) (compareValues tz nf r s p t q z b) := by
  unfold compareValues
  split
  · refine Both.foldlM_same (S := Eq) (fun x y k hxy => ?_) _ rfl
    refine (readAt_rel h _ _).bind fun u v huv => (readAt_rel h _ _).bind fun u' v' huv' => ?_
    rw [hne u u' v v' huv huv', hxy]
    exact rfl
  · exact (assert_rel ht h _).bind fun _ _ _ => rfl

/-- C70: comparing arrays in two runs gives the same result if comparing the values does. -/
theorem C70_compare (R : V → U → Prop) (ty : Types V) (tz : Types U) (ht : TypesRel R ty tz) (p : List (Cmd V))
    (q : List (Cmd U)) (hpq : List.Forall₂ (CmdRel R) p q) (ne : V → V → Bool) (nf : U → U → Bool)
    (hne : ∀ u u' v v', R u v → R u' v' → nf v v' = ne u u') (x y : Nat) :
    (execAll tz q World.start >>= arraysEq tz nf x y) = (execAll ty p World.start >>= arraysEq ty ne x y) ∧
    (execAll tz q World.start >>= arraysNe tz nf x y) = (execAll ty p World.start >>= arraysNe ty ne x y) ∧
    (execAll tz q World.start >>= arraysEqual tz nf x y) = (execAll ty p World.start >>= arraysEqual ty ne x y) := by
  have key : ∀ {a : World V → Except Fault Bool} {b : World U → Except Fault Bool},
      (∀ w z, WorldRel R w z → Both Eq (a w) (b z)) →
      (execAll tz q World.start >>= b) = (execAll ty p World.start >>= a) := by
    intro a b hab
    have := Both.bind (execAll_rel ht hpq start_rel) hab
    revert this
    cases (execAll ty p World.start >>= a) <;> cases (execAll tz q World.start >>= b) <;> intro this <;>
      first | exact this.elim | exact congrArg _ (show _ = _ from this).symm
  have hrefs : ∀ s so t tn w z, WorldRel R w z → Both Eq (refsNe ty ne x s so y t tn w) (refsNe tz nf x s so y t tn z) := by
    intro s so t tn w z h
    unfold refsNe
    refine (h.get x).bind ?_
    rintro a _ rfl
    refine (h.get y).bind ?_
    rintro o _ rfl
    split
    · exact rfl
    · exact compareValues_rel ht hne _ _ _ _ _ h _
  refine ⟨key fun w z h => ?_, key fun w z h => ?_, key fun w z h => ?_⟩
  · unfold arraysEq refsEq
    refine (h.get x).bind ?_
    rintro a _ rfl
    refine (h.get y).bind ?_
    rintro o _ rfl
    refine (hrefs _ _ _ _ _ _ h).bind ?_
    rintro r _ rfl
    exact rfl
  · unfold arraysNe
    refine (h.get x).bind ?_
    rintro a _ rfl
    refine (h.get y).bind ?_
    rintro o _ rfl
    exact hrefs _ _ _ _ _ _ h
  · unfold arraysEqual refsEqual
    refine (h.get x).bind ?_
    rintro a _ rfl
    refine (h.get y).bind ?_
    rintro o _ rfl
    refine (h.get x).bind ?_
    rintro a _ rfl
    refine (h.get y).bind ?_
    rintro o _ rfl
    split
    · exact rfl
    · exact compareValues_rel ht hne _ _ _ _ _ h _

/-! ### Examples -/

/-- A program whose values are names. -/
def tagged : List (Cmd String) :=
  [.newFill [⟨0, 2, unresolved⟩, ⟨0, 2, unresolved⟩] "a", .write 0 [1, 0] "b", .newCopy 0, .write 1 [0, 1] "c",
   .reshape 1 [⟨0, 3, unresolved⟩, ⟨0, 2, unresolved⟩], .newMove 0]

def taggedTypes : Types String :=
  { debug := true, propagateCopy := false, propagateMove := false, propagateSwap := false
    selectOnCopy := id, defaultAlloc := 0
    defaultShape := [⟨0, 0, unresolved⟩, ⟨0, 0, unresolved⟩]
    defaultValue := "default", moved := fun _ => "moved", junk := "junk" }

/-- Running it once shows what it does for all values: the elements of the second array are those of the first one, of
the assignment, and default ones. -/
example : [[0, 0], [1, 0], [0, 1], [1, 1], [2, 0]].map (result taggedTypes tagged 1) =
      [.ok "a", .ok "b", .ok "c", .ok "a", .ok "default"] ∧
    ∀ a b c d m j : Int, ∀ i, result { exampleTypes with defaultValue := d, moved := fun _ => m, junk := j }
      [.newFill [⟨0, 2, unresolved⟩, ⟨0, 2, unresolved⟩] a, .write 0 [1, 0] b, .newCopy 0, .write 1 [0, 1] c,
       .reshape 1 [⟨0, 3, unresolved⟩, ⟨0, 2, unresolved⟩], .newMove 0] 1 i = (result taggedTypes tagged 1 i).map
        fun t => if t = "a" then a else if t = "b" then b else if t = "c" then c else if t = "default" then d else m := by
  refine ⟨by decide +kernel, fun a b c d m j i => ?_⟩
  apply C70_map _ taggedTypes
  · exact ⟨rfl, rfl, rfl, rfl, rfl, rfl, rfl, rfl, by simp [taggedTypes], fun _ _ _ => by simp [taggedTypes]⟩
  · simp [tagged, Cmd.mapValues]

/-- Values do matter to comparisons: `C70_compare` asks for values to be as different as those they replace. -/
theorem C70_compare_needs_injective :
    let p (v : Int) : List (Cmd Int) := [.newFill [⟨0, 2, unresolved⟩, ⟨0, 2, unresolved⟩] 1, .newCopy 0, .write 1 [1, 1] v]
    (execAll exampleTypes (p 1) World.start >>= arraysEq exampleTypes (fun u v => u != v) 0 1) = .ok true ∧
    (execAll exampleTypes (p 2) World.start >>= arraysEq exampleTypes (fun u v => u != v) 0 1) = .ok false := by
  decide +kernel

end Nda
