import Verif.Lemmas.Callables
import Verif.Props.Algorithms
import Verif.Props.Image
import Verif.Props.IndexLoops
/-
C79: the loops and algorithms and the function object they are given: which object is called, with
which arguments, and what the caller's object is afterwards.
-/
namespace Nda
open Spec

/-! ### Specification -/

/-- The rank of the shapes that select the traits `k`; the channels of chunky images without pixel
stride of their own have stride 1. -/
def Spec.SelectsTraits : TraitsKind → Shape → Prop
  | .dflt, _ => True
  | .matrix, s => ∃ di dj, s = [di, dj]
  | .padded, s => ∃ dx dy dc, s = [dx, dy, dc]
  | .chunky, s => ∃ dx dy dc, s = [dx, dy, dc] ∧ dc.stride = 1

/-- The order in which the traits `k` visit indices. -/
def Spec.IndexLt : TraitsKind → Index → Index → Prop
  | .dflt => ColexLt
  | .matrix => RowMajorLt
  | .padded => ImageLt
  | .chunky => ImageLt

/-- The traits whose `for_each_value` calls the object it is given, and not one made from it. -/
def Spec.InPlace (k : TraitsKind) : Prop := k = .dflt ∨ k = .chunky

/-! ### The sequences of indices and addresses -/

theorem indices_ok (k : TraitsKind) (s : Shape) (hk : SelectsTraits k s) (h : NonNeg s) :
    ∃ tr, k.indices s = some tr ∧ Enumerates s tr ∧ tr.Pairwise (IndexLt k) := by
  cases k with
  | dflt => exact C12_for_each_index s h
  | matrix => obtain ⟨di, dj, rfl⟩ := hk; exact C39_indices di dj h
  | padded => obtain ⟨dx, dy, dc, rfl⟩ := hk; exact C38_indices dx dy dc h
  | chunky => obtain ⟨dx, dy, dc, rfl, _⟩ := hk; exact C38_indices dx dy dc h

/-- The addresses of the elements, in the order of `l`. -/
def Spec.addresses (s : Shape) (b : Int) (l : List Index) : List Int :=
  l.map fun i => b + offsetOf s i

theorem values_in_place (k : TraitsKind) (a : ArrayRef) (b : Int) (hk : SelectsTraits k a.shape)
    (hp : InPlace k) (h : NonNeg a.shape) (hb : a.base = some b) :
    ∃ tr : List Int, (∀ l, Enumerates a.shape l → tr.Perm (addresses a.shape b l)) ∧
      ∀ {F R X : Type} (c : Callable F Int R X) (const : Bool) (f : F) (x : X),
        forEachValueFn k c a const f x = c.run tr f x := by
  rcases hp with rfl | rfl
  · exact ⟨a.forEachValue, fun l hl => C14_for_each_value a b hb h l hl, fun _ _ _ _ => rfl⟩
  · obtain ⟨dx, dy, dc, hs, hc⟩ := hk
    obtain ⟨tr, h1, h2⟩ := C38_values dx dy dc (hs ▸ h) hc b _ (boxList_enumerates _)
    refine ⟨tr, fun l hl => ?_, fun c const f x => ?_⟩
    · rw [hs] at hl ⊢
      exact h2.trans (((boxList_enumerates _).perm hl).map _)
    · show (chunkyForEachValue a.shape a.base).bind (fun l => c.run l f x) = _
      rw [hs, hb, h1]; rfl

theorem values_moved (k : TraitsKind) (a : ArrayRef) (b : Int) (hk : SelectsTraits k a.shape)
    (hp : ¬ InPlace k) (h : NonNeg a.shape) (hb : a.base = some b) :
    ∃ l : List Index, Enumerates a.shape l ∧ l.Pairwise (IndexLt k) ∧
      ∀ {F R X : Type} (c : Callable F Int R X) (const : Bool) (f : F) (x : X),
        forEachValueFn k c a const f x = (c.run (addresses a.shape b l) (c.capture const f).1 x).bind
          fun r => some ((c.capture const f).2, r.2) := by
  have key : ∀ l : List Index, ∀ {F R X : Type} (c : Callable F Int R X) (f : F) (x : X),
      (c.onArg fun i => a.base.map fun b => b + a.shape.flatOffset i).run l f x =
        c.run (addresses a.shape b l) f x := fun l _ _ _ c f x =>
    run_onArg c _ (fun i => b + offsetOf a.shape i) l (fun i _ => by rw [hb, flatOffset_eq]; rfl) f x
  cases k with
  | dflt => exact absurd (Or.inl rfl) hp
  | chunky => exact absurd (Or.inr rfl) hp
  | matrix =>
    obtain ⟨di, dj, hs⟩ := hk
    obtain ⟨l, h1, h2, h3⟩ := C39_indices di dj (hs ▸ h)
    refine ⟨l, by rw [hs]; exact h2, h3, fun c const f x => ?_⟩
    show (forEachMatrixIndex a.shape).bind _ = _
    have h1' : forEachMatrixIndex a.shape = some l := by rw [hs]; exact h1
    rw [h1', ← key]
    rfl
  | padded =>
    obtain ⟨dx, dy, dc, hs⟩ := hk
    obtain ⟨l, h1, h2, h3⟩ := C38_indices dx dy dc (hs ▸ h)
    refine ⟨l, by rw [hs]; exact h2, h3, fun c const f x => ?_⟩
    show (forEachImageIndex a.shape).bind _ = _
    have h1' : forEachImageIndex a.shape = some l := by rw [hs]; exact h1
    rw [h1', ← key]
    rfl

/-! ### Loops over indices -/

/-- C79: `for_each_index` calls the caller's object, once per index, in the order of the traits; the
caller's object afterwards is the one left by the last call.  The loop has a defined outcome exactly if
all calls have. -/
theorem C79_for_each_index (k : TraitsKind) (s : Shape) (hk : SelectsTraits k s) (h : NonNeg s) :
    ∃ tr, Enumerates s tr ∧ tr.Pairwise (IndexLt k) ∧
      ∀ {F R X : Type} (c : Callable F Index R X) (f : F) (x : X) (f' : F) (x' : X),
        forEachIndexFn k c s f x = some (f', x') ↔ ∃ rs, Calls c tr f x rs f' x' := by
  obtain ⟨tr, h1, h2, h3⟩ := indices_ok k s hk h
  refine ⟨tr, h2, h3, fun c f x f' x' => ?_⟩
  rw [← run_iff]
  show (k.indices s).bind _ = _ ↔ _
  rw [h1]; rfl

/-- C79: `for_all_indices` makes an object from the caller's one and makes the same calls on it; the
caller's object afterwards is what the constructor left of it, whatever the calls do, and even if there
is none. -/
theorem C79_for_all_indices (k : TraitsKind) (s : Shape) (hk : SelectsTraits k s) (h : NonNeg s) :
    ∃ tr, Enumerates s tr ∧ tr.Pairwise (IndexLt k) ∧
      ∀ {F R X : Type} (c : Callable F Index R X) (const : Bool) (f : F) (x : X) (f' : F) (x' : X),
        forAllIndicesFn k c s const f x = some (f', x') ↔
          ∃ g g' rs, MadeFrom c const f g f' ∧ Calls c tr g x rs g' x' := by
  obtain ⟨tr, h1, h2, h3⟩ := indices_ok k s hk h
  refine ⟨tr, h2, h3, fun c const f x f' x' => ?_⟩
  have e : forAllIndicesFn k c s const f x = (c.run tr (c.capture const f).1 x).bind
      fun r => some ((c.capture const f).2, r.2) := by
    have e1 : forEachIndexFn k (c.onArg some) s (c.capture const f).1 x =
        c.run tr (c.capture const f).1 x := by
      show (k.indices s).bind _ = _
      rw [h1]
      simpa using run_onArg c some id tr (fun _ _ => rfl) (c.capture const f).1 x
    rw [← e1]; rfl
  rw [e, capture_bind c const f (fun g => c.run tr g x)]
  simp only [run_iff, exists_and_left]

/-- C79: with a loop order, both functions make an object from the caller's one. -/
theorem C79_ordered (s : Shape) (order : List Nat) (h : NonNeg s)
    (hp : order.Perm (List.range s.length)) :
    ∃ tr, Enumerates s tr ∧
      (tr.Pairwise fun a b =>
        ColexLt (order.map fun k => a.getD k 0) (order.map fun k => b.getD k 0)) ∧
      ∀ {F R X : Type} (c : Callable F Index R X) (const : Bool) (f : F) (x : X) (f' : F) (x' : X),
        forEachIndexOrderedFn c order s const f x = some (f', x') ↔
          ∃ g g' rs, MadeFrom c const f g f' ∧ Calls c tr g x rs g' x' := by
  obtain ⟨tr, h1, h2, h3⟩ := C13_loop_order s order h hp
  refine ⟨tr, h2, h3, fun c const f x f' x' => ?_⟩
  unfold Shape.forEachIndexOrdered at h1
  cases hl : Shape.forEachIndex (Shape.reorder order s) with
  | none => rw [hl] at h1; cases h1
  | some l =>
    rw [hl] at h1
    simp only [Option.map_some, Option.some.injEq] at h1
    have e : forEachIndexOrderedFn c order s const f x = (c.run tr (c.capture const f).1 x).bind
        fun r => some ((c.capture const f).2, r.2) := by
      rw [← h1, ← run_onArg c (fun i => some (unshuffle order i)) _ l (fun _ _ => rfl)]
      show (Shape.forEachIndex (Shape.reorder order s)).bind _ = _
      rw [hl]; rfl
    rw [e, capture_bind c const f (fun g => c.run tr g x)]
    simp only [run_iff, exists_and_left]

/-! ### `for_each_value` -/

/-- C79: `for_each_value` with the default traits, and on chunky images, calls the caller's object on
the address of each element. -/
theorem C79_for_each_value (k : TraitsKind) (a : ArrayRef) (b : Int) (hk : SelectsTraits k a.shape)
    (hp : InPlace k) (h : NonNeg a.shape) (hb : a.base = some b) :
    ∃ tr : List Int, (∀ l, Enumerates a.shape l → tr.Perm (addresses a.shape b l)) ∧
      ∀ {F R X : Type} (c : Callable F Int R X) (const : Bool) (f : F) (x : X) (f' : F) (x' : X),
        forEachValueFn k c a const f x = some (f', x') ↔ ∃ rs, Calls c tr f x rs f' x' := by
  obtain ⟨tr, h1, h2⟩ := values_in_place k a b hk hp h hb
  exact ⟨tr, h1, fun c const f x f' x' => by rw [h2, run_iff]⟩

/-- C79: on matrices, and on chunky images with a pixel stride of their own, `for_each_value` makes an
object from the caller's one. -/
theorem C79_for_each_value_moved (k : TraitsKind) (a : ArrayRef) (b : Int) (hk : SelectsTraits k a.shape)
    (hp : ¬ InPlace k) (h : NonNeg a.shape) (hb : a.base = some b) :
    ∃ l : List Index, Enumerates a.shape l ∧ l.Pairwise (IndexLt k) ∧
      ∀ {F R X : Type} (c : Callable F Int R X) (const : Bool) (f : F) (x : X) (f' : F) (x' : X),
        forEachValueFn k c a const f x = some (f', x') ↔
          ∃ g g' rs, MadeFrom c const f g f' ∧ Calls c (addresses a.shape b l) g x rs g' x' := by
  obtain ⟨l, h1, h2, h3⟩ := values_moved k a b hk hp h hb
  refine ⟨l, h1, h2, fun c const f x f' x' => ?_⟩
  rw [h3, capture_bind c const f (fun g => c.run (addresses a.shape b l) g x)]
  simp only [run_iff, exists_and_left]

/-! ### Algorithms that assign -/

/-- C79: `generate` makes an object from the caller's one, calls it once per element, and stores each
result before the next call. -/
theorem C79_generate (k : TraitsKind) (a : ArrayRef) (b : Int) (hk : SelectsTraits k a.shape)
    (hp : InPlace k) (h : NonNeg a.shape) (hb : a.base = some b) :
    ∃ tr : List Int, (∀ l, Enumerates a.shape l → tr.Perm (addresses a.shape b l)) ∧
      ∀ {F R σ : Type} (c : Callable F Unit R (σ × Mem R)) (const : Bool) (f : F) (x : σ × Mem R)
        (f' : F) (x' : σ × Mem R),
        generateFn k c a const f x = some (f', x') ↔
          ∃ g g', MadeFrom c const f g f' ∧ Assigns c (tr.map fun p => ((), p)) g x g' x' := by
  obtain ⟨tr, h1, h2⟩ := values_in_place k a b hk hp h hb
  refine ⟨tr, h1, fun c const f x f' x' => ?_⟩
  have e : generateFn k c a const f x =
      ((c.assigning (fun _ => ()) some).run tr (c.capture const f).1 x).bind
        fun r => some ((c.capture const f).2, r.2) := by
    rw [← h2 (c.assigning (fun _ => ()) some) false]; rfl
  rw [e, capture_bind c const f (fun g => (c.assigning (fun _ => ()) some).run tr g x)]
  simp only [run_assigning c (fun _ => ()) some (fun p => p) tr (fun _ _ => rfl)]

/-- C79: on matrices, and on chunky images with a pixel stride of their own, the object is moved a
second time before the calls. -/
theorem C79_generate_moved (k : TraitsKind) (a : ArrayRef) (b : Int) (hk : SelectsTraits k a.shape)
    (hp : ¬ InPlace k) (h : NonNeg a.shape) (hb : a.base = some b) :
    ∃ l : List Index, Enumerates a.shape l ∧ l.Pairwise (IndexLt k) ∧
      ∀ {F R σ : Type} (c : Callable F Unit R (σ × Mem R)) (const : Bool) (f : F) (x : σ × Mem R)
        (f' : F) (x' : σ × Mem R),
        generateFn k c a const f x = some (f', x') ↔
          ∃ g g₁ left g', MadeFrom c const f g f' ∧ c.take g = (g₁, left) ∧
            Assigns c ((addresses a.shape b l).map fun p => ((), p)) g₁ x g' x' := by
  obtain ⟨l, h1, h2, h3⟩ := values_moved k a b hk hp h hb
  refine ⟨l, h1, h2, fun c const f x f' x' => ?_⟩
  have e : generateFn k c a const f x =
      (forEachValueFn k (c.assigning (fun _ => ()) some) a false (c.capture const f).1 x).bind
        fun r => some ((c.capture const f).2, r.2) := rfl
  rw [e, capture_bind c const f
    (fun g => forEachValueFn k (c.assigning (fun _ => ()) some) a false g x)]
  constructor
  · rintro ⟨g, g', hm, hg⟩
    rw [h3, capture_bind _ false g
      (fun g => (c.assigning (fun _ => ()) some).run (addresses a.shape b l) g x)] at hg
    obtain ⟨g₁, g₁', hm', hr⟩ := hg
    rcases hm' with ⟨h0, _⟩ | ⟨_, ht⟩
    · cases h0
    · exact ⟨g, g₁, g', g₁', hm, ht,
        (run_assigning c (fun _ => ()) some (fun p => p) _ (fun _ _ => rfl) _ _ _ _).1 hr⟩
  · rintro ⟨g, g₁, left, g', hm, ht, hr⟩
    refine ⟨g, left, hm, ?_⟩
    rw [h3, capture_bind _ false g
      (fun g => (c.assigning (fun _ => ()) some).run (addresses a.shape b l) g x)]
    exact ⟨g₁, g', Or.inr ⟨rfl, ht⟩,
      (run_assigning c (fun _ => ()) some (fun p => p) _ (fun _ _ => rfl) _ _ _ _).2 hr⟩

theorem transformIndexFn_run {F R σ : Type} (k : TraitsKind) (a : ArrayRef) (tr : List Index)
    (ht : k.indices a.shape = some tr) (c : Callable F Index R (σ × Mem R)) (const : Bool) (f : F)
    (x : σ × Mem R) :
    transformIndexFn k c a const f x =
      ((c.assigning id a.at_).run tr (c.capture const f).1 x).bind
        fun r => some ((c.capture const f).2, r.2) := by
  have e1 : forEachIndexFn k (c.assigning id a.at_) a.shape (c.capture const f).1 x =
      (c.assigning id a.at_).run tr (c.capture const f).1 x := by
    show (k.indices a.shape).bind _ = _
    rw [ht]; rfl
  rw [← e1]; rfl

/-- C79: `transform_index` makes an object from the caller's one, calls it with each index, in the
order of the traits, and stores each result at the element of that index before the next call. -/
theorem C79_transform_index (k : TraitsKind) (a : ArrayRef) (b : Int) (hk : SelectsTraits k a.shape)
    (h : NonNeg a.shape) (hb : a.base = some b) :
    ∃ tr, Enumerates a.shape tr ∧ tr.Pairwise (IndexLt k) ∧
      ∀ {F R σ : Type} (c : Callable F Index R (σ × Mem R)) (const : Bool) (f : F) (x : σ × Mem R)
        (f' : F) (x' : σ × Mem R),
        transformIndexFn k c a const f x = some (f', x') ↔
          ∃ g g', MadeFrom c const f g f' ∧
            Assigns c (tr.map fun i => (i, b + offsetOf a.shape i)) g x g' x' := by
  obtain ⟨tr, h1, h2, h3⟩ := indices_ok k a.shape hk h
  refine ⟨tr, h2, h3, fun c const f x f' x' => ?_⟩
  rw [transformIndexFn_run k a tr h1, capture_bind c const f (fun g => (c.assigning id a.at_).run tr g x)]
  simp only [run_assigning c id a.at_ (fun i => b + offsetOf a.shape i) tr
    (fun i _ => by unfold ArrayRef.at_; rw [hb, flatOffset_eq]; rfl), id]

/-- C79: `transform_indices` moves the object a second time before the calls. -/
theorem C79_transform_indices (k : TraitsKind) (a : ArrayRef) (b : Int) (hk : SelectsTraits k a.shape)
    (h : NonNeg a.shape) (hb : a.base = some b) :
    ∃ tr, Enumerates a.shape tr ∧ tr.Pairwise (IndexLt k) ∧
      ∀ {F R σ : Type} (c : Callable F Index R (σ × Mem R)) (const : Bool) (f : F) (x : σ × Mem R)
        (f' : F) (x' : σ × Mem R),
        transformIndicesFn k c a const f x = some (f', x') ↔
          ∃ g g₁ left g', MadeFrom c const f g f' ∧ c.take g = (g₁, left) ∧
            Assigns c (tr.map fun i => (i, b + offsetOf a.shape i)) g₁ x g' x' := by
  obtain ⟨tr, h2, h3, h4⟩ := C79_transform_index k a b hk h hb
  refine ⟨tr, h2, h3, fun c const f x f' x' => ?_⟩
  have hs : c.onArg some = c := rfl
  have e : transformIndicesFn k c a const f x =
      (transformIndexFn k c a false (c.capture const f).1 x).bind
        fun r => some ((c.capture const f).2, r.2) := by
    rw [← hs]; rfl
  rw [e, capture_bind c const f (fun g => transformIndexFn k c a false g x)]
  simp only [h4]
  constructor
  · rintro ⟨g, left, hm, g₁, g', hm', hr⟩
    rcases hm' with ⟨h0, _⟩ | ⟨_, ht⟩
    · cases h0
    · exact ⟨g, g₁, left, g', hm, ht, hr⟩
  · rintro ⟨g, g₁, left, g', hm, ht, hr⟩
    exact ⟨g, left, hm, g₁, g', Or.inr ⟨rfl, ht⟩, hr⟩

/-! ### Consequences -/

/-- C79: a const object is as before after every algorithm. -/
theorem C79_const {F A R X : Type} (c : Callable F A R X) (f g left : F)
    (h : MadeFrom c true f g left) : left = f := by
  rcases h with ⟨_, _, h⟩ | ⟨h, _⟩
  · exact h
  · cases h

/-- C79: for objects that no move and no call changes (functions, and lambdas that capture only
references, pointers and numbers), `transform_index` is the algorithm of C19. -/
theorem C79_agree_transform_index {F R σ : Type} (c : Callable F Index R (σ × Mem R)) (f : F)
    (fn : Index → R) (ht : c.take f = (f, f)) (hd : c.dup f = f)
    (hc : ∀ i x, c.call f i x = some (fn i, f, x)) (a : ArrayRef) (const : Bool) (s : σ) (m : Mem R) :
    transformIndexFn .dflt c a const f (s, m) =
      (transformIndex a fn m).map fun m' => (f, (s, m')) := by
  have hcap : c.capture const f = (f, f) := by
    cases const <;> simp [Callable.capture, ht, hd]
  unfold transformIndex
  cases hl : a.shape.forEachIndex with
  | none =>
    show ((a.shape.forEachIndex).bind _).bind _ = _
    rw [hl]; rfl
  | some tr =>
    rw [transformIndexFn_run .dflt a tr hl, hcap]
    show _ = (tr.foldlM (fun m i => (a.at_ i).bind fun p => some (m.set p (fn i))) m).map _
    clear hl
    induction tr generalizing m with
    | nil => rfl
    | cons i tr ih =>
      rw [Callable.run, List.foldlM_cons]
      have e : (c.assigning id a.at_).call f i (s, m) =
          (a.at_ i).bind fun p => some ((), f, s, m.set p (fn i)) := by
        show (c.call f i (s, m)).bind _ = _
        rw [hc]; rfl
      rw [e]
      cases a.at_ i with
      | none => rfl
      | some p => exact ih (m.set p (fn i))

/-- C79: and `generate` is that of C19, with the state of the generator outside the object. -/
theorem C79_agree_generate {F R σ : Type} (c : Callable F Unit R (σ × Mem R)) (f : F)
    (gen : σ → R × σ) (ht : c.take f = (f, f)) (hd : c.dup f = f)
    (hc : ∀ s m, c.call f () (s, m) = some ((gen s).1, f, (gen s).2, m)) (a : ArrayRef) (const : Bool)
    (x : σ × Mem R) :
    generateFn .dflt c a const f x = some (f, generate a gen x) := by
  have hcap : c.capture const f = (f, f) := by
    cases const <;> simp [Callable.capture, ht, hd]
  have e : generateFn .dflt c a const f x =
      ((c.assigning (fun _ => ()) some).run a.forEachValue (c.capture const f).1 x).bind
        fun r => some ((c.capture const f).2, r.2) := rfl
  rw [e, hcap]
  clear e
  unfold generate
  generalize a.forEachValue = tr
  induction tr generalizing x with
  | nil => rfl
  | cons p tr ih =>
    rw [Callable.run, List.foldl_cons]
    have e : (c.assigning (fun _ => ()) some).call f p x =
        some ((), f, (gen x.1).2, x.2.set p (gen x.1).1) := by
      show (c.call f () (x.1, x.2)).bind _ = _
      rw [hc]; rfl
    rw [e]
    exact ih _

/-! ### Concrete cases -/

/-- A function object that counts its calls in a member, and whose copies and moves copy the count. -/
def exampleCounter : Callable Int Index Unit (List Index) where
  call f i x := some ((), f + 1, x ++ [i])
  take f := (f, f)
  dup f := f

/-- `for_each_index` counts in the caller's object, `for_all_indices` in another one. -/
example : forEachIndexFn .dflt exampleCounter [⟨0, 2, 1⟩, ⟨5, 2, 2⟩] 10 [] =
    some (14, [[0, 5], [1, 5], [0, 6], [1, 6]]) := by
  show (Shape.forEachIndex [⟨0, 2, 1⟩, ⟨5, 2, 2⟩]).bind _ = _
  rw [forEachIndex_eq (by simp [NonNeg])]; decide +kernel
example : forAllIndicesFn .matrix exampleCounter [⟨0, 2, 1⟩, ⟨5, 2, 2⟩] false 10 [] =
    some (10, [[0, 5], [0, 6], [1, 5], [1, 6]]) := by
  show (((forEachMatrixIndex [⟨0, 2, 1⟩, ⟨5, 2, 2⟩]).bind _).bind _) = _
  rw [forEachMatrixIndex_eq (by simp [NonNeg])]; decide +kernel

/-- A generator that owns a sequence (a lambda with a captured `std::vector`, say) and returns its
length: what is left of it after a move is empty. -/
def exampleOwner : Callable (List Int) Unit Int (Unit × Mem Int) where
  call f _ x := some ((f.length : Int), f, x)
  take f := (f, [])
  dup f := f

/-- C79: a caller that gives the same object to `generate` twice gets other results the second time,
although no call changes the object: the first `generate` has moved it away.  With a const object the
results are the same. -/
theorem C79_moved_from_counterexample :
    (((generateFn .dflt exampleOwner ⟨some 0, [⟨0, 2, 1⟩]⟩ false [7, 8, 9] ((), fun _ => -1)).bind
      fun r => generateFn .dflt exampleOwner ⟨some 10, [⟨0, 2, 1⟩]⟩ false r.1 r.2).map
        fun r => [0, 1, 10, 11].map r.2.2) = some [3, 3, 0, 0] ∧
    (((generateFn .dflt exampleOwner ⟨some 0, [⟨0, 2, 1⟩]⟩ true [7, 8, 9] ((), fun _ => -1)).bind
      fun r => generateFn .dflt exampleOwner ⟨some 10, [⟨0, 2, 1⟩]⟩ true r.1 r.2).map
        fun r => [0, 1, 10, 11].map r.2.2) = some [3, 3, 3, 3] := by
  constructor <;> decide +kernel

/-- C79: it is moved away even if the array is empty and no call is made. -/
theorem C79_moved_from_empty_counterexample :
    (generateFn .dflt exampleOwner ⟨some 0, [⟨0, 0, 1⟩]⟩ false [7, 8, 9] ((), fun _ => -1)).map
      (·.1) = some [] := by decide +kernel

example : (generateFn .dflt exampleOwner ⟨some 0, [⟨0, 2, 1⟩]⟩ true [7, 8, 9] ((), fun _ => -1)).map
    (·.1) = some [7, 8, 9] := by decide +kernel
example : ((generateFn .dflt exampleOwner ⟨some 0, [⟨0, 2, 1⟩]⟩ true [7, 8, 9]
    ((), fun _ => -1)).map fun r => [0, 1, 2].map r.2.2) = some [3, 3, -1] := by decide +kernel

/-- A pattern function that reads the array it fills: it sees the elements stored before. -/
def exampleSums : Callable Unit Index Int (Unit × Mem Int) where
  call f i x := some (x.2 (i.getD 0 0 - 1) + 1, f, x)
  take f := (f, f)
  dup f := f

example : ((transformIndicesFn .dflt exampleSums ⟨some 1, [⟨1, 3, 1⟩]⟩ false () ((), fun _ => 4)).map
    fun r => [0, 1, 2, 3, 4].map r.2.2) = some [4, 5, 6, 7, 4] := by
  show ((((Shape.forEachIndex [⟨1, 3, 1⟩]).bind _).bind _).bind _).map _ = _
  rw [forEachIndex_eq (by simp [NonNeg])]; decide +kernel

example : SelectsTraits .matrix [⟨0, 2, 1⟩, ⟨5, 2, 2⟩] := ⟨_, _, rfl⟩
example : SelectsTraits .chunky [⟨0, 2, 3⟩, ⟨5, 2, 6⟩, ⟨0, 3, 1⟩] := ⟨_, _, _, rfl, rfl⟩
example : MadeFrom exampleOwner false [7] [7] [] := Or.inr ⟨rfl, rfl⟩

end Nda
