import Verif.Spec.Mixed
import Verif.Props.Ein
/-
Helper lemmas for C89.
-/
namespace Nda

open Spec

variable {τ : Type} {C : τ → Type}

theorem untyped_eq_forget {α : Type} (o : EinOp α) : o.untyped = forget o := by
  obtain ⟨op, is⟩ := o
  cases op <;> rfl

theorem leaves_untyped {t : τ} (e : MixedExpr C t) :
    leaves e.untyped = (typedLeaves e).map fun p => forget p.2 := by
  induction e with
  | op o => simp [MixedExpr.untyped, leaves, typedLeaves, untyped_eq_forget]
  | unary f e ih => exact ih
  | binary f a b iha ihb => simp [MixedExpr.untyped, leaves, typedLeaves, iha, ihb]

theorem shapesOf_eq {l r : τ} (lhs : EinOp (C l)) (rhs : MixedExpr C r) :
    shapesOf lhs rhs = lhs.untyped :: leaves rhs.untyped := by
  rw [leaves_untyped, untyped_eq_forget]; rfl

theorem forget_inRange {α : Type} (o : EinOp α) (i : List Int) : OpInRange (forget o) i ↔ OpInRange o i := by
  obtain ⟨op, is⟩ := o
  cases op <;> exact Iff.rfl

theorem forget_is {α : Type} (o : EinOp α) : (forget o).is = o.is := by
  obtain ⟨op, is⟩ := o
  cases op <;> rfl

/-- The value of an expression is what `operator()` gives, in any memory that has the same elements. -/
theorem mixed_eval {t : τ} {e : MixedExpr C t} {m m' : TypedMem C} {i : Index}
    (hr : ∀ o ∈ typedLeaves e, OpInRange (forget o.2) i) (hb : ∀ o ∈ typedLeaves e, OpBacked (forget o.2))
    (hm : ∀ o ∈ typedLeaves e, ∀ a, OpElement o.2 a → m' o.1 a = m o.1 a) :
    e.eval m' i = mixedValue m i e := by
  induction e with
  | @op t o =>
    have hr' := hr ⟨t, o⟩ (by simp [typedLeaves])
    have hb' := hb ⟨t, o⟩ (by simp [typedLeaves])
    have hm' := hm ⟨t, o⟩ (by simp [typedLeaves])
    obtain ⟨op, is⟩ := o
    cases op with
    | fn f => rfl
    | arr base dims =>
      cases base with
      | none => exact absurd hr' (hb' rfl _)
      | some b =>
        simp only [MixedExpr.eval, EinOp.eval, mixedValue, Option.map_some, Option.getD_some]
        rw [flatOffset_eq]
        exact congrArg some (hm' _ ⟨b, _, rfl, hr', rfl⟩)
  | unary f e ih =>
    unfold MixedExpr.eval mixedValue
    rw [ih hr hb hm]
    rfl
  | binary f a b iha ihb =>
    unfold MixedExpr.eval mixedValue
    rw [iha (fun o ho => hr o (by simp [typedLeaves, ho])) (fun o ho => hb o (by simp [typedLeaves, ho]))
        (fun o ho => hm o (by simp [typedLeaves, ho])),
      ihb (fun o ho => hr o (by simp [typedLeaves, ho])) (fun o ho => hb o (by simp [typedLeaves, ho]))
        (fun o ho => hm o (by simp [typedLeaves, ho]))]
    rfl

/-- One step for one cell. -/
def cellStep {α β : Type} (f : α → β → Option α) (V : Index → Option β) (x : α) (i : Index) : Option α :=
  (V i).bind (f x)

/-- Updating cells, as long as it is defined. -/
def updatesM {α β : Type} (f : α → β → Option α) (A : Index → Int) (V : Index → Option β) (m : Mem α)
    (l : List Index) : Option (Mem α) :=
  foldDefined (fun m i => (cellStep f V (m (A i)) i).map (m.set (A i))) m l

theorem updatesM_some {α β : Type} (f : α → β → Option α) (A : Index → Int) (V : Index → Option β) (m m' : Mem α)
    (l : List Index)
    (h : ∀ a, foldDefined (cellStep f V) (m a) (l.filter fun i => A i = a) = some (m' a)) :
    updatesM f A V m l = some m' := by
  unfold updatesM
  induction l generalizing m with
  | nil =>
    refine congrArg some (funext fun a => ?_)
    have := h a
    simp only [List.filter_nil, foldDefined, Option.some.injEq] at this
    exact this
  | cons i l ih =>
    have hi := h (A i)
    rw [List.filter_cons_of_pos (by simp), foldDefined] at hi
    obtain ⟨x, hx, hi⟩ := Option.bind_eq_some_iff.1 hi
    unfold foldDefined
    rw [hx]
    simp only [Option.map_some, Option.bind_some]
    refine ih _ fun a => ?_
    by_cases ha : A i = a
    · subst ha
      rw [Mem.set_same]
      exact hi
    · rw [Mem.set_other _ _ fun e => ha e.symm]
      have := h a
      rwa [List.filter_cons_of_neg (by simpa using ha)] at this

theorem updatesM_none {α β : Type} (f : α → β → Option α) (A : Index → Int) (V : Index → Option β) (m : Mem α)
    (l : List Index) (a : Int)
    (h : foldDefined (cellStep f V) (m a) (l.filter fun i => A i = a) = none) :
    updatesM f A V m l = none := by
  unfold updatesM
  induction l generalizing m with
  | nil => simp [foldDefined] at h
  | cons i l ih =>
    unfold foldDefined
    cases hx : cellStep f V (m (A i)) i with
    | none => rfl
    | some x =>
      simp only [Option.map_some, Option.bind_some]
      refine ih _ ?_
      by_cases ha : A i = a
      · subst ha
        rw [List.filter_cons_of_pos (by simp), foldDefined, hx] at h
        rw [Mem.set_same]
        exact h
      · rw [Mem.set_other _ _ fun e => ha e.symm]
        rwa [List.filter_cons_of_neg (by simpa using ha)] at h

theorem foldlM_mixed [DecidableEq τ] {l r : τ} (f : C l → C r → Option (C l)) {lhs : EinOp (C l)}
    {rhs : MixedExpr C r} {A : Index → Int} {V : Index → Option (C r)} {m0 : TypedMem C} (L : List Index)
    (hA : ∀ i ∈ L, lhs.address i = some (A i))
    (hv : ∀ i ∈ L, ∀ m : TypedMem C, (∀ t, t ≠ l → m t = m0 t) → (∀ a, (∀ j ∈ L, A j ≠ a) → m l a = m0 l a) →
      rhs.eval m i = V i) :
    L.foldlM (mixedStep f lhs rhs) m0 = (updatesM f A V (m0 l) L).map fun ml => Function.update m0 l ml := by
  have H : ∀ (todo : List Index), (∀ i ∈ todo, i ∈ L) → ∀ m : TypedMem C, (∀ t, t ≠ l → m t = m0 t) →
      (∀ a, (∀ j ∈ L, A j ≠ a) → m l a = m0 l a) →
      todo.foldlM (mixedStep f lhs rhs) m = (updatesM f A V (m l) todo).map fun ml => Function.update m0 l ml := by
    intro todo
    induction todo with
    | nil =>
      intro _ m h1 h2
      show some m = some (Function.update m0 l (m l))
      congr 1
      funext t
      by_cases ht : t = l
      · subst ht; rw [Function.update_self]
      · rw [Function.update_of_ne ht, h1 t ht]
    | cons i todo ih =>
      intro hL m h1 h2
      have hi := hL i (by simp)
      rw [List.foldlM_cons]
      unfold mixedStep
      rw [hv i hi m h1 h2, hA i hi]
      unfold updatesM foldDefined cellStep
      cases hV : V i with
      | none => rfl
      | some y =>
        simp only [Option.bind_eq_bind, Option.bind_some]
        cases hx : f (m l (A i)) y with
        | none => rfl
        | some x =>
          simp only [Option.map_some, Option.bind_some, Option.pure_def]
          have hm : (m.set l (A i) x) l = (m l).set (A i) x := Function.update_self _ _ _
          have := ih (fun j hj => hL j (by simp [hj])) (m.set l (A i) x)
            (fun t ht => (Function.update_of_ne ht _ _).trans (h1 t ht))
            (fun a ha => by rw [hm, Mem.set_other _ _ fun e => ha i hi e.symm]; exact h2 a ha)
          rw [hm] at this
          exact this
  exact H L (fun _ h => h) m0 (fun _ _ => rfl) fun _ _ => rfl

theorem updatesM_eq_none {α β : Type} (f : α → β → Option α) (A : Index → Int) (V : Index → Option β) (m : Mem α)
    (l : List Index) : updatesM f A V m l = none ↔
      ∃ a, foldDefined (cellStep f V) (m a) (l.filter fun i => A i = a) = none := by
  constructor
  · intro h
    by_contra hc
    push Not at hc
    choose m' hm' using fun a => Option.ne_none_iff_exists'.1 (hc a)
    rw [updatesM_some f A V m m' l hm'] at h
    cases h
  · rintro ⟨a, ha⟩
    exact updatesM_none f A V m l a ha

theorem updatesM_eq_some {α β : Type} (f : α → β → Option α) (A : Index → Int) (V : Index → Option β) (m m' : Mem α)
    (l : List Index) : updatesM f A V m l = some m' ↔
      ∀ a, foldDefined (cellStep f V) (m a) (l.filter fun i => A i = a) = some (m' a) := by
  refine ⟨fun h => ?_, updatesM_some f A V m m' l⟩
  have hc : ∀ a, foldDefined (cellStep f V) (m a) (l.filter fun i => A i = a) ≠ none := by
    intro a ha
    rw [updatesM_none f A V m l a ha] at h
    cases h
  choose m'' hm'' using fun a => Option.ne_none_iff_exists'.1 (hc a)
  rw [updatesM_some f A V m m'' l hm''] at h
  cases h
  exact hm''

theorem foldDefined_val {α β G : Type} [AddCommMonoid G] (g : α → β → Option α) (val : α → G) (w : β → G)
    (l : List β) (hg : ∀ i ∈ l, ∀ x z, g x i = some z → val z = val x + w i) (x z : α)
    (h : foldDefined g x l = some z) : val z = val x + (l.map w).sum := by
  induction l generalizing x with
  | nil => simp only [foldDefined, Option.some.injEq] at h; subst h; simp
  | cons i l ih =>
    unfold foldDefined at h
    obtain ⟨y, hy, h⟩ := Option.bind_eq_some_iff.1 h
    rw [ih (fun j hj => hg j (by simp [hj])) y h, hg i (by simp) x y hy, List.map_cons, List.sum_cons, add_assoc]

theorem foldDefined_isSome {α β : Type} (g : α → β → Option α) (val : α → Int) (w : β → Int) (lo hi K : Int)
    (hK : 0 ≤ K) (l : List β) (hw : ∀ i ∈ l, -K ≤ w i ∧ w i ≤ K)
    (hg : ∀ i ∈ l, ∀ x, lo ≤ val x + w i → val x + w i ≤ hi → ∃ z, g x i = some z ∧ val z = val x + w i)
    (x : α) (h1 : lo + l.length * K ≤ val x) (h2 : val x ≤ hi - l.length * K) :
    ∃ z, foldDefined g x l = some z := by
  induction l generalizing x with
  | nil => exact ⟨x, rfl⟩
  | cons i l ih =>
    obtain ⟨w1, w2⟩ := hw i (by simp)
    simp only [List.length_cons, Nat.cast_add, Nat.cast_one, add_mul, one_mul] at h1 h2
    have hl : (0 : Int) ≤ l.length * K := by positivity
    obtain ⟨y, hy, hv⟩ := hg i (by simp) x (by omega) (by omega)
    obtain ⟨z, hz⟩ := ih (fun j hj => hw j (by simp [hj])) (fun j hj => hg j (by simp [hj])) y
      (by omega) (by omega)
    exact ⟨z, by unfold foldDefined; rw [hy]; exact hz⟩

theorem foldDefined_inv {α β : Type} (g : α → β → Option α) (P : α → Prop)
    (hg : ∀ x i z, g x i = some z → P z) (l : List β) (x z : α) (hx : P x) (h : foldDefined g x l = some z) : P z := by
  induction l generalizing x with
  | nil => cases h; exact hx
  | cons i l ih =>
    unfold foldDefined at h
    obtain ⟨y, hy, h⟩ := Option.bind_eq_some_iff.1 h
    exact ih y (hg _ _ _ hy) h

/-! ### One element type -/

theorem untyped_maxIndex {α : Type} (o : EinOp α) : o.untyped.maxIndex = o.maxIndex := by
  obtain ⟨op, is⟩ := o
  cases op <;> rfl

theorem untyped_gatherDims {α : Type} (k : Nat) (kind : EinKind) (o : EinOp α) :
    o.untyped.gatherDims k kind = o.gatherDims k kind := by
  obtain ⟨op, is⟩ := o
  cases op <;> rfl

theorem mixed_maxIndex {α : Type} (e : EinExpr α) : e.mixed.untyped.maxIndex = e.maxIndex := by
  induction e with
  | op o => exact untyped_maxIndex o
  | unary f e ih => exact ih
  | binary f a b iha ihb =>
    unfold EinExpr.mixed MixedExpr.untyped EinExpr.maxIndex
    rw [iha, ihb]

theorem mixed_gatherDims {α : Type} (k : Nat) (kind : EinKind) (e : EinExpr α) :
    e.mixed.untyped.gatherDims k kind = e.gatherDims k kind := by
  induction e with
  | op o => exact untyped_gatherDims k kind o
  | unary f e ih => exact ih
  | binary f a b iha ihb =>
    unfold EinExpr.mixed MixedExpr.untyped EinExpr.gatherDims
    rw [iha, ihb]

theorem loopShape_mixed {α : Type} (lhs : EinOp α) (rhs : EinExpr α) :
    einLoopShape lhs.untyped rhs.mixed.untyped = einLoopShape lhs rhs := by
  unfold einLoopShape einLoopRank einLoopDims
  simp only [untyped_maxIndex, mixed_maxIndex, untyped_gatherDims, mixed_gatherDims]

theorem eval_mixed {α : Type} (m : Mem α) (i : Index) (e : EinExpr α) :
    e.mixed.eval (C := fun _ : Unit => α) (fun _ => m) i = e.eval m i := by
  induction e with
  | op o => rfl
  | unary f e ih =>
    unfold EinExpr.mixed MixedExpr.eval EinExpr.eval
    rw [ih]; rfl
  | binary f a b iha ihb =>
    unfold EinExpr.mixed MixedExpr.eval EinExpr.eval
    rw [iha, ihb]; rfl

end Nda
