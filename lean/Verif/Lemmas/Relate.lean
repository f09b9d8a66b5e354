import Verif.Spec.Relate
import Mathlib.Data.List.Forall2
/-
The functions of `array` treat values that correspond alike.
-/
namespace Nda

variable {V U : Type} {R : V → U → Prop} {ty : Types V} {tz : Types U}

theorem Both.bind {α β γ δ : Type} {S : α → β → Prop} {T : γ → δ → Prop} {a : Except Fault α} {b : Except Fault β}
    {f : α → Except Fault γ} {g : β → Except Fault δ} (h : Both S a b) (hf : ∀ x y, S x y → Both T (f x) (g y)) :
    Both T (a >>= f) (b >>= g) := by
  cases a <;> cases b <;> first | exact h.elim | skip
  · exact h
  · exact hf _ _ h

theorem Both.foldlM {α β γ δ : Type} {S : α → β → Prop} {P : γ → δ → Prop} {f : α → γ → Except Fault α}
    {g : β → δ → Except Fault β} (hf : ∀ x y c d, S x y → P c d → Both S (f x c) (g y d)) :
    ∀ {l : List γ} {m : List δ}, List.Forall₂ P l m → ∀ {a b}, S a b → Both S (l.foldlM f a) (m.foldlM g b)
  | _, _, .nil, _, _, h => h
  | _, _, .cons h1 h2, _, _, h => by
    rw [List.foldlM_cons, List.foldlM_cons]
    exact Both.bind (hf _ _ _ _ h h1) fun x y hxy => Both.foldlM hf h2 hxy

theorem Both.foldlM_same {α β γ : Type} {S : α → β → Prop} {f : α → γ → Except Fault α}
    {g : β → γ → Except Fault β} (hf : ∀ x y c, S x y → Both S (f x c) (g y c)) (l : List γ) {a b} (h : S a b) :
    Both S (l.foldlM f a) (l.foldlM g b) :=
  Both.foldlM (P := Eq) (fun x y c d hxy hcd => hcd ▸ hf x y c hxy) (List.forall₂_eq_eq_eq ▸ rfl) h

theorem WorldRel.get {w : World V} {z : World U} (h : WorldRel R w z) (x : Nat) : Both Eq (w.get x) (z.get x) := by
  unfold World.get
  rw [h.vars]
  cases w.vars x <;> exact rfl

theorem WorldRel.setVar {w : World V} {z : World U} (h : WorldRel R w z) (x : Nat) (a : Option Arr) :
    WorldRel R (w.setVar x a) (z.setVar x a) :=
  ⟨h.heap, h.nextBlock, by simp [World.setVar, h.vars], h.nextVar, h.calls⟩

theorem WorldRel.push {w : World V} {z : World U} (h : WorldRel R w z) (a : Arr) : WorldRel R (w.push a) (z.push a) := by
  refine ⟨h.heap, h.nextBlock, ?_, ?_, h.calls⟩
  · simp [World.push, World.setVar, h.vars, h.nextVar]
  · simp [World.push, h.nextVar]

theorem WorldRel.setBlock {w : World V} {z : World U} (h : WorldRel R w z) (b : Nat) {p : Option (Block V)}
    {q : Option (Block U)} (hpq : Option.Rel (BlockRel R) p q) : WorldRel R (w.setBlock b p) (z.setBlock b q) := by
  refine ⟨fun c => ?_, h.nextBlock, h.vars, h.nextVar, h.calls⟩
  simp only [World.setBlock]
  split
  · exact hpq
  · exact h.heap c

theorem WorldRel.setBlockCalls {w : World V} {z : World U} (h : WorldRel R w z) (b : Nat) {p : Block V}
    {q : Block U} (hpq : BlockRel R p q) (k : List Call) : Both (WorldRel R)
      (.ok { w.setBlock b (some p) with calls := k }) (.ok { z.setBlock b (some q) with calls := k }) := by
  have := h.setBlock b (.some hpq)
  exact ⟨this.heap, this.nextBlock, this.vars, this.nextVar, rfl⟩

theorem WorldRel.block {w : World V} {z : World U} (h : WorldRel R w z) (b : Nat) (o : Int) :
    Both (BlockRel R) (w.block b o) (z.block b o) := by
  unfold World.block
  have := h.heap b
  cases h1 : w.heap b <;> cases h2 : z.heap b <;> rw [h1, h2] at this <;> cases this
  · exact rfl
  · rename_i p q hpq
    simp only [hpq.size]
    split
    · exact hpq
    · exact rfl

theorem check_rel {w : World V} {z : World U} (h : WorldRel R w z) (f : Fault) (b : Bool) :
    Both (WorldRel R) (check f b w) (check f b z) := by
  unfold check
  split
  · exact h
  · exact rfl

theorem assert_rel (ht : TypesRel R ty tz) {w : World V} {z : World U} (h : WorldRel R w z) (b : Bool) :
    Both (WorldRel R) (assert ty b w) (assert tz b z) := by
  unfold assert
  rw [ht.debug]
  exact check_rel h _ _

theorem readAt_rel {w : World V} {z : World U} (h : WorldRel R w z) (b : Nat) (o : Int) :
    Both R (readAt w b o) (readAt z b o) := by
  unfold readAt
  refine (h.block b o).bind fun p q hpq => ?_
  rw [hpq.live]
  split
  · exact rfl
  · exact hpq.val o ‹_›

theorem constructAt_rel (k : Call) (b : Nat) (o : Int) {u : V} {v : U} (huv : R u v) {w : World V} {z : World U}
    (h : WorldRel R w z) : Both (WorldRel R) (constructAt k b o u w) (constructAt k b o v z) := by
  unfold constructAt
  refine (h.block b o).bind fun p q hpq => ?_
  rw [h.calls]
  refine h.setBlockCalls b ?_ _
  refine ⟨hpq.source, hpq.size, by simp [hpq.live], fun i hi => ?_⟩
  dsimp only at hi ⊢
  split
  · exact huv
  · rw [if_neg ‹_›] at hi
    exact hpq.val i hi

theorem destroyAt_rel (b : Nat) (o : Int) {w : World V} {z : World U} (h : WorldRel R w z) :
    Both (WorldRel R) (destroyAt b o w) (destroyAt b o z) := by
  unfold destroyAt
  refine (h.block b o).bind fun p q hpq => ?_
  rw [hpq.live, h.calls]
  split
  · exact rfl
  · refine h.setBlockCalls b ?_ _
    refine ⟨hpq.source, hpq.size, rfl, fun i hi => ?_⟩
    apply hpq.val i
    dsimp only at hi
    split at hi
    · rename_i he
      rw [he]
      omega
    · exact hi

theorem assignAt_rel (k : Call) (b : Nat) (o : Int) {u : V} {v : U} (huv : R u v) {w : World V} {z : World U}
    (h : WorldRel R w z) : Both (WorldRel R) (assignAt k b o u w) (assignAt k b o v z) := by
  unfold assignAt
  refine (h.block b o).bind fun p q hpq => ?_
  rw [hpq.live, h.calls]
  split
  · exact rfl
  · refine h.setBlockCalls b ?_ _
    refine ⟨hpq.source, hpq.size, by first | rfl | exact hpq.live, fun i hi => ?_⟩
    dsimp only at hi ⊢
    split
    · exact huv
    · exact hpq.val i hi

theorem movedFromAt_rel (ht : TypesRel R ty tz) (b : Nat) (o : Int) {w : World V} {z : World U} (h : WorldRel R w z) :
    Both (WorldRel R) (movedFromAt ty b o w) (movedFromAt tz b o z) := by
  unfold movedFromAt
  refine (h.block b o).bind fun p q hpq => ?_
  refine h.setBlock b (.some ⟨hpq.source, hpq.size, hpq.live, fun i hi => ?_⟩)
  dsimp only at hi ⊢
  split
  · rename_i he
    rw [he] at hi
    exact ht.moved _ _ (hpq.val o hi)
  · exact hpq.val i hi

/-- An operation on a pair of elements treats values that correspond alike. -/
def PairRel (R : V → U → Prop) (f : Nat → Nat → Int × Int → World V → Except Fault (World V))
    (g : Nat → Nat → Int × Int → World U → Except Fault (World U)) : Prop :=
  ∀ bs bd p w z, WorldRel R w z → Both (WorldRel R) (f bs bd p w) (g bs bd p z)

theorem copyConstructAt_rel : PairRel R copyConstructAt copyConstructAt := by
  intro bs bd p w z h
  unfold copyConstructAt
  exact (readAt_rel h _ _).bind fun u v huv => constructAt_rel _ _ _ huv h

theorem moveConstructAt_rel (ht : TypesRel R ty tz) : PairRel R (moveConstructAt ty) (moveConstructAt tz) := by
  intro bs bd p w z h
  unfold moveConstructAt
  exact (readAt_rel h _ _).bind fun u v huv => (movedFromAt_rel ht _ _ h).bind fun w z h => constructAt_rel _ _ _ huv h

theorem moveAssignAt_rel (ht : TypesRel R ty tz) : PairRel R (moveAssignAt ty) (moveAssignAt tz) := by
  intro bs bd p w z h
  unfold moveAssignAt
  exact (readAt_rel h _ _).bind fun u v huv => (movedFromAt_rel ht _ _ h).bind fun w z h => assignAt_rel _ _ _ huv h

theorem copyAssignAt_rel : PairRel R copyAssignAt copyAssignAt := by
  intro bs bd p w z h
  unfold copyAssignAt
  exact (readAt_rel h _ _).bind fun u v huv => assignAt_rel _ _ _ huv h

theorem free_rel {w : World V} {z : World U} (h : WorldRel R w z) (b : Nat) {p : Block V} {q : Block U}
    (hpq : BlockRel R p q) : Both (WorldRel R) (w.free b p) (z.free b q) := by
  unfold World.free
  rw [hpq.size, hpq.live]
  split
  · exact h.setBlock b .none
  · exact rfl

theorem release_rel (ht : TypesRel R ty tz) (al : Allocator) (p : Ptr) (n : Nat) {w : World V} {z : World U}
    (h : WorldRel R w z) :
    Both (fun r s => WorldRel R r.1 s.1 ∧ r.2 = s.2) (release ty al p n w) (release tz al p n z) := by
  unfold release
  cases p with
  | none => exact rfl
  | some p =>
    have := h.heap p.1
    dsimp only
    cases h1 : w.heap p.1 <;> cases h2 : z.heap p.1 <;> rw [h1, h2] at this <;> cases this
    · exact rfl
    · rename_i blk blk' hb
      dsimp only
      rw [hb.source, hb.size]
      split
      · exact (assert_rel ht h _).bind fun w z h => (free_rel h _ hb).bind fun w z h => ⟨h, rfl⟩
      · split
        · exact rfl
        · exact (free_rel h _ hb).bind fun w z h => ⟨h, rfl⟩

theorem allocate_rel (ht : TypesRel R ty tz) (x : Nat) {w : World V} {z : World U} (h : WorldRel R w z) :
    Both (WorldRel R) (allocate ty x w) (allocate tz x z) := by
  unfold allocate
  refine (h.get x).bind ?_
  rintro a _ rfl
  refine (assert_rel ht h _).bind fun w z h => ?_
  dsimp only
  split
  · rw [ht.inlineSize, h.nextBlock]
    apply WorldRel.setVar
    refine ⟨fun c => ?_, rfl, h.vars, h.nextVar, h.calls⟩
    simp only [World.setBlock]
    split
    · exact .some ⟨rfl, rfl, rfl, fun o ho => absurd rfl ho⟩
    · exact h.heap c
  · exact (check_rel h _ _).bind fun w z h => h.setVar _ _

theorem construct_rel (ht : TypesRel R ty tz) (x : Nat) (k : Call) {u : V} {v : U} (huv : R u v) {w : World V} {z : World U}
    (h : WorldRel R w z) : Both (WorldRel R) (construct ty x k u w) (construct tz x k v z) := by
  unfold construct
  refine (h.get x).bind ?_
  rintro a _ rfl
  refine (assert_rel ht h _).bind fun w z h => ?_
  split
  · exact assert_rel ht h _
  · refine Both.foldlM_same (fun w z p h => ?_) _ h
    exact constructAt_rel _ _ _ huv h

theorem forEachPair_rel (ht : TypesRel R ty tz) {f : Nat → Nat → Int × Int → World V → Except Fault (World V)}
    {g : Nat → Nat → Int × Int → World U → Except Fault (World U)} (hfg : PairRel R f g) (src : Shape) (p : Ptr) (dst : Shape)
    (q : Ptr) {w : World V} {z : World U} (h : WorldRel R w z) :
    Both (WorldRel R) (forEachPair ty src p dst q f w) (forEachPair tz src p dst q g z) := by
  unfold forEachPair
  split
  · refine Both.foldlM_same (fun w z p h => ?_) _ h
    exact hfg _ _ _ _ _ h
  · exact assert_rel ht h _

theorem copyConstruct_rel (ht : TypesRel R ty tz) (x y : Nat) {w : World V} {z : World U} (h : WorldRel R w z) :
    Both (WorldRel R) (copyConstruct ty x y w) (copyConstruct tz x y z) := by
  unfold copyConstruct
  refine (h.get x).bind ?_
  rintro a _ rfl
  refine (h.get y).bind ?_
  rintro o _ rfl
  exact (assert_rel ht h _).bind fun w z h => forEachPair_rel ht copyConstructAt_rel _ _ _ _ h

theorem moveConstruct_rel (ht : TypesRel R ty tz) (x y : Nat) {w : World V} {z : World U} (h : WorldRel R w z) :
    Both (WorldRel R) (moveConstruct ty x y w) (moveConstruct tz x y z) := by
  unfold moveConstruct
  refine (h.get x).bind ?_
  rintro a _ rfl
  refine (h.get y).bind ?_
  rintro o _ rfl
  exact (assert_rel ht h _).bind fun w z h => forEachPair_rel ht (moveConstructAt_rel ht) _ _ _ _ h

theorem destroy_rel (ht : TypesRel R ty tz) (x : Nat) {w : World V} {z : World U} (h : WorldRel R w z) :
    Both (WorldRel R) (destroy ty x w) (destroy tz x z) := by
  unfold destroy
  refine (h.get x).bind ?_
  rintro a _ rfl
  refine (assert_rel ht h _).bind fun w z h => ?_
  split
  · exact assert_rel ht h _
  · refine Both.foldlM_same (fun w z p h => ?_) _ h
    exact destroyAt_rel _ _ h

theorem deallocate_rel (ht : TypesRel R ty tz) (x : Nat) {w : World V} {z : World U} (h : WorldRel R w z) :
    Both (WorldRel R) (deallocate ty x w) (deallocate tz x z) := by
  unfold deallocate
  refine (h.get x).bind ?_
  rintro a _ rfl
  split
  · refine (destroy_rel ht x h).bind fun w z h => (release_rel ht _ _ _ h).bind ?_
    rintro ⟨w, al⟩ ⟨z, al'⟩ ⟨h, rfl⟩
    rw [ht.defaultShape]
    exact h.setVar _ _
  · exact h

theorem swapExceptAllocator_rel (x y : Nat) {w : World V} {z : World U} (h : WorldRel R w z) :
    Both (WorldRel R) (swapExceptAllocator x y w) (swapExceptAllocator x y z) := by
  unfold swapExceptAllocator
  refine (h.get x).bind ?_
  rintro a _ rfl
  refine (h.get y).bind ?_
  rintro o _ rfl
  exact (h.setVar _ _).setVar _ _

theorem swapAllocator_rel (x y : Nat) {w : World V} {z : World U} (h : WorldRel R w z) :
    Both (WorldRel R) (swapAllocator x y w) (swapAllocator x y z) := by
  unfold swapAllocator
  refine (h.get x).bind ?_
  rintro a _ rfl
  refine (h.get y).bind ?_
  rintro o _ rfl
  exact (h.setVar _ _).setVar _ _

theorem setShapeMember_rel (x : Nat) (s : Shape) {w : World V} {z : World U} (h : WorldRel R w z) :
    Both (WorldRel R) (setShapeMember x s w) (setShapeMember x s z) := by
  unfold setShapeMember
  refine (h.get x).bind ?_
  rintro a _ rfl
  exact h.setVar _ _

theorem assignCopy_rel (ht : TypesRel R ty tz) (x y : Nat) {w : World V} {z : World U} (h : WorldRel R w z) :
    Both (WorldRel R) (assignCopy ty x y w) (assignCopy tz x y z) := by
  unfold assignCopy
  refine (h.get x).bind ?_
  rintro a _ rfl
  refine (h.get y).bind ?_
  rintro o _ rfl
  split
  · split
    · exact assert_rel ht h _
    · exact (setShapeMember_rel _ _ h).bind fun w z h => assert_rel ht h _
  · dsimp only
    split
    · exact (destroy_rel ht _ h).bind fun w z h => copyConstruct_rel ht _ _ h
    · exact (deallocate_rel ht _ h).bind fun w z h => (setShapeMember_rel _ _ h).bind fun w z h =>
        (allocate_rel ht _ h).bind fun w z h => copyConstruct_rel ht _ _ h

theorem assignMove_rel (ht : TypesRel R ty tz) (x y : Nat) {w : World V} {z : World U} (h : WorldRel R w z) :
    Both (WorldRel R) (assignMove ty x y w) (assignMove tz x y z) := by
  unfold assignMove
  refine (h.get x).bind ?_
  rintro a _ rfl
  refine (h.get y).bind ?_
  rintro o _ rfl
  split
  · split
    · exact assert_rel ht h _
    · exact (setShapeMember_rel _ _ h).bind fun w z h => assert_rel ht h _
  · dsimp only
    split
    · exact (destroy_rel ht _ h).bind fun w z h => moveConstruct_rel ht _ _ h
    · exact (deallocate_rel ht _ h).bind fun w z h => (setShapeMember_rel _ _ h).bind fun w z h =>
        (allocate_rel ht _ h).bind fun w z h => moveConstruct_rel ht _ _ h

theorem assignFill_rel (ht : TypesRel R ty tz) (x : Nat) (s : Shape) {u : V} {v : U} (huv : R u v) {w : World V} {z : World U}
    (h : WorldRel R w z) : Both (WorldRel R) (assignFill ty x s u w) (assignFill tz x s v z) := by
  unfold assignFill
  refine (h.get x).bind ?_
  rintro a _ rfl
  dsimp only
  split
  · exact (destroy_rel ht _ h).bind fun w z h => construct_rel ht _ _ huv h
  · exact (deallocate_rel ht _ h).bind fun w z h => (setShapeMember_rel _ _ h).bind fun w z h =>
      (allocate_rel ht _ h).bind fun w z h => construct_rel ht _ _ huv h

theorem newShapeAlloc_rel (ht : TypesRel R ty tz) (s : Shape) (al : Nat) {w : World V} {z : World U} (h : WorldRel R w z) :
    Both (WorldRel R) (newShapeAlloc ty s al w) (newShapeAlloc tz s al z) := by
  unfold newShapeAlloc
  rw [h.nextVar]
  exact (allocate_rel ht _ (h.push _)).bind fun w z h => construct_rel ht _ _ ht.defaultValue h

theorem newShape_rel (ht : TypesRel R ty tz) (s : Shape) {w : World V} {z : World U} (h : WorldRel R w z) :
    Both (WorldRel R) (newShape ty s w) (newShape tz s z) := by
  unfold newShape
  rw [ht.defaultAlloc]
  exact newShapeAlloc_rel ht _ _ h

theorem newDefault_rel (ht : TypesRel R ty tz) {w : World V} {z : World U} (h : WorldRel R w z) :
    Both (WorldRel R) (newDefault ty w) (newDefault tz z) := by
  unfold newDefault
  rw [ht.defaultShape]
  exact newShape_rel ht _ h

theorem newAlloc_rel (ht : TypesRel R ty tz) (al : Nat) {w : World V} {z : World U} (h : WorldRel R w z) :
    Both (WorldRel R) (newAlloc ty al w) (newAlloc tz al z) := by
  unfold newAlloc
  rw [ht.defaultShape]
  exact newShapeAlloc_rel ht _ _ h

theorem newFillAlloc_rel (ht : TypesRel R ty tz) (s : Shape) {u : V} {v : U} (huv : R u v) (al : Nat) {w : World V} {z : World U}
    (h : WorldRel R w z) : Both (WorldRel R) (newFillAlloc ty s u al w) (newFillAlloc tz s v al z) := by
  unfold newFillAlloc
  rw [h.nextVar]
  exact (newAlloc_rel ht _ h).bind fun w z h => assignFill_rel ht _ _ huv h

theorem newFill_rel (ht : TypesRel R ty tz) (s : Shape) {u : V} {v : U} (huv : R u v) {w : World V} {z : World U}
    (h : WorldRel R w z) : Both (WorldRel R) (newFill ty s u w) (newFill tz s v z) := by
  unfold newFill
  rw [h.nextVar]
  exact (newDefault_rel ht h).bind fun w z h => assignFill_rel ht _ _ huv h

theorem newCopy_rel (ht : TypesRel R ty tz) (y : Nat) {w : World V} {z : World U} (h : WorldRel R w z) :
    Both (WorldRel R) (newCopy ty y w) (newCopy tz y z) := by
  unfold newCopy
  rw [h.nextVar, ht.selectOnCopy, ht.defaultShape]
  refine (h.get y).bind ?_
  rintro o _ rfl
  exact assignCopy_rel ht _ _ (h.push _)

theorem newCopyAlloc_rel (ht : TypesRel R ty tz) (y al : Nat) {w : World V} {z : World U} (h : WorldRel R w z) :
    Both (WorldRel R) (newCopyAlloc ty y al w) (newCopyAlloc tz y al z) := by
  unfold newCopyAlloc
  rw [h.nextVar]
  exact (newAlloc_rel ht _ h).bind fun w z h => assignCopy_rel ht _ _ h

theorem allocatorForMove_rel (ht : TypesRel R ty tz) (o : Arr) : allocatorForMove tz o = allocatorForMove ty o := by
  unfold allocatorForMove
  rw [ht.propagateMove, ht.defaultAlloc]

theorem newMove_rel (ht : TypesRel R ty tz) (y : Nat) {w : World V} {z : World U} (h : WorldRel R w z) :
    Both (WorldRel R) (newMove ty y w) (newMove tz y z) := by
  unfold newMove
  rw [h.nextVar, ht.propagateMove, ht.defaultShape]
  refine (h.get y).bind ?_
  rintro o _ rfl
  rw [allocatorForMove_rel ht]
  dsimp only
  split
  · exact swapExceptAllocator_rel _ _ (h.push _)
  · exact (setShapeMember_rel _ _ (h.push _)).bind fun w z h => (allocate_rel ht _ h).bind fun w z h =>
      moveConstruct_rel ht _ _ h

theorem newMoveAlloc_rel (ht : TypesRel R ty tz) (y al : Nat) {w : World V} {z : World U} (h : WorldRel R w z) :
    Both (WorldRel R) (newMoveAlloc ty y al w) (newMoveAlloc tz y al z) := by
  unfold newMoveAlloc
  rw [h.nextVar, ht.defaultShape]
  refine (h.get y).bind ?_
  rintro o _ rfl
  dsimp only
  split
  · exact swapExceptAllocator_rel _ _ (h.push _)
  · exact (setShapeMember_rel _ _ (h.push _)).bind fun w z h => (allocate_rel ht _ h).bind fun w z h =>
      moveConstruct_rel ht _ _ h

theorem delete_rel (ht : TypesRel R ty tz) (x : Nat) {w : World V} {z : World U} (h : WorldRel R w z) :
    Both (WorldRel R) (delete ty x w) (delete tz x z) := by
  unfold delete
  exact (deallocate_rel ht _ h).bind fun w z h => h.setVar _ _

theorem copyAssignOp_rel (ht : TypesRel R ty tz) (x y : Nat) {w : World V} {z : World U} (h : WorldRel R w z) :
    Both (WorldRel R) (copyAssignOp ty x y w) (copyAssignOp tz x y z) := by
  unfold copyAssignOp
  refine (h.get x).bind ?_
  rintro a _ rfl
  refine (h.get y).bind ?_
  rintro o _ rfl
  rw [ht.propagateCopy]
  split
  · split
    · exact assert_rel ht h _
    · exact (setShapeMember_rel _ _ h).bind fun w z h => assert_rel ht h _
  · dsimp only
    have hset : ∀ (a : Arr) {w : World V} {z : World U}, WorldRel R w z → Both (WorldRel R)
        (assignCopy ty x y (w.setVar x (some { a with alloc := { a.alloc with arena := o.alloc.arena } })))
        (assignCopy tz x y (z.setVar x (some { a with alloc := { a.alloc with arena := o.alloc.arena } }))) :=
      fun a w z h => assignCopy_rel ht _ _ (h.setVar _ _)
    split
    · split
      · refine (deallocate_rel ht _ h).bind fun w z h => (h.get x).bind ?_
        rintro a _ rfl
        exact hset a h
      · refine (h.get x).bind ?_
        rintro a _ rfl
        exact hset a h
    · exact assignCopy_rel ht _ _ h

theorem moveAssignOp_rel (ht : TypesRel R ty tz) (x y : Nat) {w : World V} {z : World U} (h : WorldRel R w z) :
    Both (WorldRel R) (moveAssignOp ty x y w) (moveAssignOp tz x y z) := by
  unfold moveAssignOp
  refine (h.get x).bind ?_
  rintro a _ rfl
  refine (h.get y).bind ?_
  rintro o _ rfl
  rw [ht.propagateMove]
  split
  · split
    · exact assert_rel ht h _
    · dsimp only
      have h' := (h.setVar x (some { a with shape := o.shape })).setVar y (some { o with shape := a.shape })
      refine (h'.get x).bind ?_
      rintro a _ rfl
      exact assert_rel ht h' _
  · split
    · exact (swapAllocator_rel _ _ h).bind fun w z h => swapExceptAllocator_rel _ _ h
    · split
      · exact swapExceptAllocator_rel _ _ h
      · exact assignMove_rel ht _ _ h

theorem clear_rel (ht : TypesRel R ty tz) (x : Nat) {w : World V} {z : World U} (h : WorldRel R w z) :
    Both (WorldRel R) (clear ty x w) (clear tz x z) := by
  unfold clear
  rw [ht.defaultShape]
  exact (deallocate_rel ht _ h).bind fun w z h => (setShapeMember_rel _ _ h).bind fun w z h =>
    (allocate_rel ht _ h).bind fun w z h => construct_rel ht _ _ ht.defaultValue h

theorem reshape_rel (ht : TypesRel R ty tz) (x : Nat) (s : Shape) {w : World V} {z : World U} (h : WorldRel R w z) :
    Both (WorldRel R) (reshape ty x s w) (reshape tz x s z) := by
  unfold reshape
  rw [h.nextVar]
  refine (h.get x).bind ?_
  rintro a _ rfl
  dsimp only
  split
  · exact h
  · refine (newShape_rel ht _ h).bind fun w z h => ?_
    refine (h.get _).bind ?_
    rintro n _ rfl
    refine (h.get x).bind ?_
    rintro a _ rfl
    exact (forEachPair_rel ht (moveAssignAt_rel ht) _ _ _ _ h).bind fun w z h =>
      (moveAssignOp_rel ht _ _ h).bind fun w z h => delete_rel ht _ h

theorem swap_rel (ht : TypesRel R ty tz) (x y : Nat) {w : World V} {z : World U} (h : WorldRel R w z) :
    Both (WorldRel R) (swap ty x y w) (swap tz x y z) := by
  unfold swap
  rw [ht.propagateSwap]
  split
  · exact (swapAllocator_rel _ _ h).bind fun w z h => swapExceptAllocator_rel _ _ h
  · rw [h.nextVar]
    exact (newMove_rel ht _ h).bind fun w z h => (moveAssignOp_rel ht _ _ h).bind fun w z h =>
      (moveAssignOp_rel ht _ _ h).bind fun w z h => delete_rel ht _ h

theorem assignElements_rel (ht : TypesRel R ty tz) (keep : Bool) (src : Shape) (p : Ptr) (dst : Shape) (q : Ptr)
    {w : World V} {z : World U} (h : WorldRel R w z) :
    Both (WorldRel R) (assignElements keep ty src p dst q w) (assignElements keep tz src p dst q z) := by
  unfold assignElements
  split
  · exact h
  · refine (assert_rel ht h _).bind fun w z h => forEachPair_rel ht ?_ _ _ _ _ h
    cases keep
    · exact moveAssignAt_rel ht
    · exact copyAssignAt_rel

theorem makeFrom_rel (ht : TypesRel R ty tz) (keep : Bool) (y : Nat) (src : Shape) (off : Int) (s : Shape) (al : Nat)
    {w : World V} {z : World U} (h : WorldRel R w z) :
    Both (WorldRel R) (makeFrom keep ty y src off s al w) (makeFrom keep tz y src off s al z) := by
  unfold makeFrom
  rw [h.nextVar]
  refine (h.get y).bind ?_
  rintro o _ rfl
  refine (newShapeAlloc_rel ht _ _ h).bind fun w z h => (h.get _).bind ?_
  rintro d _ rfl
  exact assignElements_rel ht _ _ _ _ _ h

theorem makeFromArray_rel (ht : TypesRel R ty tz) (keep : Bool) (y : Nat) (s : Shape) (al : Nat)
    {w : World V} {z : World U} (h : WorldRel R w z) :
    Both (WorldRel R) (makeFromArray keep ty y s al w) (makeFromArray keep tz y s al z) := by
  unfold makeFromArray
  refine (h.get y).bind ?_
  rintro o _ rfl
  exact makeFrom_rel ht _ _ _ _ _ _ h

theorem makeMoveRvalue_rel (ht : TypesRel R ty tz) (y : Nat) (s : Shape) (al : Nat)
    {w : World V} {z : World U} (h : WorldRel R w z) :
    Both (WorldRel R) (makeMoveRvalue ty y s al w) (makeMoveRvalue tz y s al z) := by
  unfold makeMoveRvalue
  rw [h.nextVar]
  refine (h.get y).bind ?_
  rintro o _ rfl
  split
  · exact newCopy_rel ht _ h
  · exact makeFromArray_rel ht _ _ _ _ h

theorem write_rel (x : Nat) (i : Index) {u : V} {v : U} (huv : R u v) {w : World V} {z : World U} (h : WorldRel R w z) :
    Both (WorldRel R) (write x i u w) (write x i v z) := by
  unfold write
  refine (h.get x).bind ?_
  rintro a _ rfl
  split
  · exact rfl
  · exact assignAt_rel _ _ _ huv h

theorem elem_rel (x : Nat) (i : Index) {w : World V} {z : World U} (h : WorldRel R w z) :
    Both R (elem w x i) (elem z x i) := by
  unfold elem
  refine (h.get x).bind ?_
  rintro a _ rfl
  split
  · exact rfl
  · exact readAt_rel h _ _

theorem assignRef_rel (ht : TypesRel R ty tz) (keep : Bool) (y : Nat) (src : Shape) (soff : Int) (x : Nat) (dst : Shape)
    (doff : Int) {w : World V} {z : World U} (h : WorldRel R w z) :
    Both (WorldRel R) (assignRef keep ty y src soff x dst doff w) (assignRef keep tz y src soff x dst doff z) := by
  unfold assignRef
  refine (h.get y).bind ?_
  rintro o _ rfl
  refine (h.get x).bind ?_
  rintro a _ rfl
  exact assignElements_rel ht _ _ _ _ _ h

theorem forEachRef_rel (ht : TypesRel R ty tz) (x : Nat) (s : Shape) (off : Int) {f : Nat → V → V} {g : Nat → U → U}
    (hfg : ∀ k u v, R u v → R (f k u) (g k v)) {w : World V} {z : World U} (h : WorldRel R w z) :
    Both (WorldRel R) (forEachRef ty x s off f w) (forEachRef tz x s off g z) := by
  unfold forEachRef
  refine (h.get x).bind ?_
  rintro a _ rfl
  split
  · exact assert_rel ht h _
  · refine Both.foldlM_same (fun w z p h => ?_) _ h
    unfold replaceAt
    exact (readAt_rel h _ _).bind fun u v huv => assignAt_rel _ _ _ (hfg _ _ _ huv) h

theorem transformRef_rel (x : Nat) (s : Shape) (off : Int) {f : Index → V} {g : Index → U}
    (hfg : ∀ i, R (f i) (g i)) {w : World V} {z : World U} (h : WorldRel R w z) :
    Both (WorldRel R) (transformRef x s off f w) (transformRef x s off g z) := by
  unfold transformRef
  refine (h.get x).bind ?_
  rintro a _ rfl
  split
  · exact rfl
  · refine Both.foldlM_same (fun w z i h => ?_) _ h
    split
    · exact rfl
    · exact assignAt_rel _ _ _ (hfg _) h

theorem exec_rel (ht : TypesRel R ty tz) {c : Cmd V} {d : Cmd U} (hc : CmdRel R c d) {w : World V} {z : World U}
    (h : WorldRel R w z) : Both (WorldRel R) (exec ty c w) (exec tz d z) := by
  cases hc
  case new => exact newDefault_rel ht h
  case newAlloc => exact newAlloc_rel ht _ h
  case newShape => exact newShape_rel ht _ h
  case newShapeAlloc => exact newShapeAlloc_rel ht _ _ h
  case newFill huv => exact newFill_rel ht _ huv h
  case newFillAlloc huv _ => exact newFillAlloc_rel ht _ huv _ h
  case newCopy => exact newCopy_rel ht _ h
  case newCopyAlloc => exact newCopyAlloc_rel ht _ _ h
  case newMove => exact newMove_rel ht _ h
  case newMoveAlloc => exact newMoveAlloc_rel ht _ _ h
  case delete => exact delete_rel ht _ h
  case copyAssign => exact copyAssignOp_rel ht _ _ h
  case moveAssign => exact moveAssignOp_rel ht _ _ h
  case assignCopy => exact assignCopy_rel ht _ _ h
  case assignMove => exact assignMove_rel ht _ _ h
  case assignFill huv => exact assignFill_rel ht _ _ huv h
  case clear => exact clear_rel ht _ h
  case reshape => exact reshape_rel ht _ _ h
  case swap => exact swap_rel ht _ _ h
  case write huv => exact write_rel _ _ huv h
  case makeCopy => exact makeFromArray_rel ht _ _ _ _ h
  case makeCopyRef => exact makeFrom_rel ht _ _ _ _ _ _ h
  case makeMove => exact makeFromArray_rel ht _ _ _ _ h
  case makeMoveRef => exact makeFrom_rel ht _ _ _ _ _ _ h
  case makeMoveRvalue => exact makeMoveRvalue_rel ht _ _ _ h
  case copyRef => exact assignRef_rel ht _ _ _ _ _ _ _ h
  case moveRef => exact assignRef_rel ht _ _ _ _ _ _ _ h
  case forEach hfg => exact forEachRef_rel ht _ _ _ hfg h
  case transform hfg => exact transformRef_rel _ _ _ hfg h

theorem execAll_rel (ht : TypesRel R ty tz) {p : List (Cmd V)} {q : List (Cmd U)} (hp : List.Forall₂ (CmdRel R) p q)
    {w : World V} {z : World U} (h : WorldRel R w z) : Both (WorldRel R) (execAll ty p w) (execAll tz q z) := by
  unfold execAll
  exact Both.foldlM (P := CmdRel R) (fun w z c d h hc => exec_rel ht hc h) hp h

theorem start_rel : WorldRel R World.start World.start := ⟨fun _ => .none, rfl, rfl, rfl, rfl⟩

end Nda
