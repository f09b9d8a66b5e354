import Verif.Spec.Callables
/-
The loops of `Model/Callables.lean` as sequences of calls.
-/
namespace Nda
open Spec

section
variable {F A R X : Type}

theorem run_iff (c : Callable F A R X) (l : List A) (f : F) (x : X) (f' : F) (x' : X) :
    c.run l f x = some (f', x') ↔ ∃ rs, Calls c l f x rs f' x' := by
  induction l generalizing f x with
  | nil =>
    constructor
    · intro h
      simp only [Callable.run, Option.some.injEq, Prod.mk.injEq] at h
      obtain ⟨rfl, rfl⟩ := h
      exact ⟨[], .done _ _⟩
    · rintro ⟨rs, h⟩; cases h; rfl
  | cons a l ih =>
    constructor
    · intro h
      rw [Callable.run] at h
      cases e : c.call f a x with
      | none => rw [e] at h; cases h
      | some r =>
        rw [e] at h
        obtain ⟨rs, hc⟩ := (ih r.2.1 r.2.2).1 h
        exact ⟨r.1 :: rs, .next e hc⟩
    · rintro ⟨rs, h⟩
      cases h with
      | next e hc =>
        rw [Callable.run, e]
        exact (ih _ _).2 ⟨_, hc⟩

theorem run_onArg {B : Type} (c : Callable F A R X) (arg : B → Option A) (h : B → A) (l : List B)
    (hl : ∀ b ∈ l, arg b = some (h b)) (f : F) (x : X) :
    (c.onArg arg).run l f x = c.run (l.map h) f x := by
  induction l generalizing f x with
  | nil => rfl
  | cons b l ih =>
    rw [Callable.run, List.map_cons, Callable.run]
    have e : (c.onArg arg).call f b x = c.call f (h b) x := by
      show (arg b >>= fun a => c.call f a x) = _
      rw [hl b (by simp)]; rfl
    rw [e]
    congr 1
    funext r
    exact ih (fun b hb => hl b (by simp [hb])) _ _

theorem run_assigning {B σ : Type} (c : Callable F A R (σ × Mem R)) (arg : B → A)
    (addr : B → Option Int) (p : B → Int) (l : List B) (hl : ∀ b ∈ l, addr b = some (p b)) (f : F)
    (x : σ × Mem R) (f' : F) (x' : σ × Mem R) :
    (c.assigning arg addr).run l f x = some (f', x') ↔
      Assigns c (l.map fun b => (arg b, p b)) f x f' x' := by
  induction l generalizing f x with
  | nil =>
    constructor
    · intro h
      simp only [Callable.run, Option.some.injEq, Prod.mk.injEq] at h
      obtain ⟨rfl, rfl⟩ := h
      exact .done _ _
    · intro h; cases h; rfl
  | cons b l ih =>
    have ih := ih fun b hb => hl b (by simp [hb])
    have e : (c.assigning arg addr).run (b :: l) f x =
        (c.call f (arg b) x).bind fun r =>
          (c.assigning arg addr).run l r.2.1 (r.2.2.1, r.2.2.2.set (p b) r.1) := by
      rw [Callable.run]
      show ((c.call f (arg b) x).bind fun r => (addr b).bind fun a =>
        some ((), r.2.1, r.2.2.1, r.2.2.2.set a r.1)).bind _ = _
      rw [hl b (by simp)]
      cases c.call f (arg b) x <;> rfl
    rw [e, List.map_cons]
    constructor
    · intro h
      cases e : c.call f (arg b) x with
      | none => rw [e] at h; cases h
      | some r =>
        rw [e] at h
        exact .next e ((ih _ _).1 h)
    · intro h
      cases h with
      | next e hc => rw [e]; exact (ih _ _).2 hc

theorem capture_iff (c : Callable F A R X) (const : Bool) (f g left : F) :
    c.capture const f = (g, left) ↔ MadeFrom c const f g left := by
  cases const
  · simp [Callable.capture, MadeFrom]
  · simp [Callable.capture, MadeFrom, eq_comm]

/-- An algorithm that captures, and then runs something of the capture. -/
theorem capture_bind (c : Callable F A R X) (const : Bool) (f : F) {Y : Type}
    (k : F → Option (F × Y)) (f' : F) (x' : Y) :
    ((k (c.capture const f).1).bind fun r => some ((c.capture const f).2, r.2)) = some (f', x') ↔
      ∃ g g', MadeFrom c const f g f' ∧ k g = some (g', x') := by
  constructor
  · intro h
    cases e : k (c.capture const f).1 with
    | none => rw [e] at h; cases h
    | some r =>
      rw [e] at h
      simp only [Option.bind_some, Option.some.injEq, Prod.mk.injEq] at h
      obtain ⟨h1, h2⟩ := h
      subst h1 h2
      exact ⟨_, r.1, (capture_iff c const f _ _).1 rfl, e⟩
  · rintro ⟨g, g', hm, e⟩
    rw [(capture_iff c const f g f').2 hm, e]; rfl

end

end Nda
