import Mathlib.Algebra.BigOperators.Group.List.Basic
import Mathlib.Tactic.Positivity
import Verif.Lemmas.Mixed
import Verif.Props.Algorithms
/-
C89: reductions and comparisons of arrays of different element types, with operations that C++ does not define for
all values.
-/
namespace Nda
open Spec
variable {τ : Type} [DecidableEq τ] {C : τ → Type}

/-- C89: for each element of the result let `loops r` be the loop indices that address it, in loop order.
`ein_reduce(lhs op= rhs)` has the result `m'` exactly when, for each element, applying `op` to the values of the
right-hand side for these loop indices is defined and gives the element in `m'`, and all other objects, of any type,
are the same in `m'`.  It is undefined exactly when it is undefined for some element: in which other element
something goes wrong does not matter. -/
theorem C89_fold {l r : τ} (f : C l → C r → Option (C l)) (lhs : EinOp (C l)) (rhs : MixedExpr C r)
    (m : TypedMem C) (h : MixedInput lhs rhs) (ha : einAssert lhs.untyped rhs.untyped = true) (lb : Int)
    (ld : List SDim) (hl : lhs.op = .arr (some lb) ld) :
    ∃ loops : List Int → List Index,
      (∀ x, (loops x).Pairwise ColexLt ∧
        ∀ i, i ∈ loops x ↔ LoopIndex (shapesOf lhs rhs) i ∧ pick lhs.is i = x) ∧
      (∀ m', mixedReduce f lhs rhs m = some m' ↔
        (∀ x, InBox (ld.map SDim.val) x →
          foldDefined (fun y i => (mixedValue m i rhs).bind (f y)) (m l (lb + offsetOf (ld.map SDim.val) x)) (loops x) =
            some (m' l (lb + offsetOf (ld.map SDim.val) x))) ∧
        (∀ a, ¬ OpElement lhs a → m' l a = m l a) ∧ ∀ t, t ≠ l → m' t = m t) ∧
      (mixedReduce f lhs rhs m = none ↔ ∃ x, InBox (ld.map SDim.val) x ∧
        foldDefined (fun y i => (mixedValue m i rhs).bind (f y)) (m l (lb + offsetOf (ld.map SDim.val) x)) (loops x) =
          none) := by
  obtain ⟨op, is⟩ := lhs
  simp only at hl
  subst hl
  set lhs : EinOp (C l) := ⟨.arr (some lb) ld, is⟩ with hlhs
  obtain ⟨ht, hn, hc, hb, hinj, hsep⟩ := h
  rw [shapesOf_eq] at ht hn hc hb ⊢
  have hmem := fun i => (mem_boxList (i := i)).trans (loopIndex_iff ht hc ha i)
  have hr : ∀ i ∈ boxList (einLoopShape lhs.untyped rhs.untyped), ∀ o ∈ lhs.untyped :: leaves rhs.untyped,
      OpInRange o i := fun i hi o ho => ((hmem i).1 hi).2.1 o ho
  have hrl : ∀ i ∈ boxList (einLoopShape lhs.untyped rhs.untyped), InBox (ld.map SDim.val) (pick is i) :=
    fun i hi => hr i hi lhs.untyped (by simp)
  have hleaf : ∀ o ∈ typedLeaves rhs, forget o.2 ∈ lhs.untyped :: leaves rhs.untyped := by
    intro o ho
    rw [leaves_untyped]
    exact List.mem_cons_of_mem _ (List.mem_map.2 ⟨o, ho, rfl⟩)
  have hfold := foldlM_mixed (lhs := lhs) (rhs := rhs) f (m0 := m)
    (A := fun i => lb + offsetOf (ld.map SDim.val) (pick is i)) (V := fun i => mixedValue m i rhs)
    (boxList (einLoopShape lhs.untyped rhs.untyped))
    (by
      intro i _
      simp only [hlhs, EinOp.address, Option.map_some]
      rw [flatOffset_eq]; rfl)
    (by
      intro i hi m' h1 h2
      refine mixed_eval (fun o ho => hr i hi _ (hleaf o ho)) (fun o ho => hb _ (hleaf o ho)) ?_
      intro o ho a hoa
      by_cases hot : o.1 = l
      · obtain ⟨t, o⟩ := o
        simp only at hot
        subst hot
        refine h2 a ?_
        rintro j hj rfl
        exact hsep _ ho rfl _ ⟨lb, _, rfl, hrl j hj, rfl⟩ hoa
      · rw [h1 _ hot])
  have hE : mixedReduce f lhs rhs m =
      (boxList (einLoopShape lhs.untyped rhs.untyped)).foldlM (mixedStep f lhs rhs) m := by
    unfold mixedReduce
    rw [forEachIndex_eq (einLoopShape_nonNeg ht hn)]
    rfl
  rw [hfold] at hE
  have hcell : ∀ x, InBox (ld.map SDim.val) x →
      ((boxList (einLoopShape lhs.untyped rhs.untyped)).filter fun i =>
        lb + offsetOf (ld.map SDim.val) (pick is i) = lb + offsetOf (ld.map SDim.val) x) =
      (boxList (einLoopShape lhs.untyped rhs.untyped)).filter fun i => pick is i = x := by
    intro x hx
    refine List.filter_congr fun i hi => ?_
    simp only [decide_eq_decide]
    constructor
    · intro e
      exact hinj _ _ (hrl i hi) hx (by simp only [hlhs, einDims]; omega)
    · rintro rfl; rfl
  have hother : ∀ a, ¬ OpElement lhs a →
      ((boxList (einLoopShape lhs.untyped rhs.untyped)).filter fun i =>
        lb + offsetOf (ld.map SDim.val) (pick is i) = a) = [] := by
    intro a hna
    rw [List.filter_eq_nil_iff]
    intro i hi
    simp only [decide_eq_true_eq]
    rintro rfl
    exact hna ⟨lb, _, rfl, hrl i hi, rfl⟩
  refine ⟨fun x => (boxList (einLoopShape lhs.untyped rhs.untyped)).filter fun i => pick is i = x, ?_, ?_, ?_⟩
  · intro x
    refine ⟨(boxList_pairwise _).filter _, fun i => ?_⟩
    rw [List.mem_filter, hmem]
    show _ ∧ decide (pick is i = x) = true ↔ _ ∧ pick is i = x
    rw [decide_eq_true_eq]
  · intro m'
    rw [hE, Option.map_eq_some_iff]
    constructor
    · rintro ⟨ml, hml, rfl⟩
      rw [updatesM_eq_some] at hml
      refine ⟨fun x hx => ?_, fun a hna => ?_, fun t ht => Function.update_of_ne ht _ _⟩
      · rw [Function.update_self, ← hml, hcell x hx]; rfl
      · rw [Function.update_self]
        have := hml a
        rw [hother a hna] at this
        simp only [foldDefined, Option.some.injEq] at this
        exact this.symm
    · rintro ⟨h1, h2, h3⟩
      refine ⟨m' l, (updatesM_eq_some _ _ _ _ _ _).2 fun a => ?_, ?_⟩
      · by_cases hel : OpElement lhs a
        · obtain ⟨b, x, hb', hx, rfl⟩ := hel
          cases hb'
          rw [hcell x hx]
          exact h1 x hx
        · rw [hother a hel, h2 a hel]; rfl
      · funext t
        by_cases ht : t = l
        · subst ht; rw [Function.update_self]
        · rw [Function.update_of_ne ht, h3 t ht]
  · rw [hE, Option.map_eq_none_iff, updatesM_eq_none]
    constructor
    · rintro ⟨a, ha'⟩
      by_cases hel : OpElement lhs a
      · obtain ⟨b, x, hb', hx, rfl⟩ := hel
        cases hb'
        rw [hcell x hx] at ha'
        exact ⟨x, hx, ha'⟩
      · rw [hother a hel] at ha'; cases ha'
    · rintro ⟨x, hx, hx'⟩
      exact ⟨_, by rw [hcell x hx]; exact hx'⟩

/-- C89: sums in the type of the result.  If each step that is defined adds `w` of the value on the right-hand side
to `val` of the element (`val` and `w` are, for example, the numbers that the representations stand for, or these
numbers modulo `2 ^ n` for unsigned results), a defined reduction adds to each element the sum over all its loop
indices, whatever the type in which the right-hand side was computed.  (`l` is any list of these loop indices without
repetition.) -/
theorem C89_sum {G : Type} [AddCommMonoid G] {l r : τ} (f : C l → C r → Option (C l)) (lhs : EinOp (C l))
    (rhs : MixedExpr C r) (m m' : TypedMem C) (h : MixedInput lhs rhs)
    (ha : einAssert lhs.untyped rhs.untyped = true) (lb : Int) (ld : List SDim) (hl : lhs.op = .arr (some lb) ld)
    (val : C l → G) (w : C r → G) (hf : ∀ x y z, f x y = some z → val z = val x + w y)
    (hm : mixedReduce f lhs rhs m = some m') (x : List Int) (hx : InBox (ld.map SDim.val) x) (is : List Index)
    (hnd : is.Nodup) (his : ∀ i, i ∈ is ↔ LoopIndex (shapesOf lhs rhs) i ∧ pick lhs.is i = x)
    (v : Index → G) (hv : ∀ i ∈ is, ∀ y, mixedValue m i rhs = some y → v i = w y) :
    val (m' l (lb + offsetOf (ld.map SDim.val) x)) =
      val (m l (lb + offsetOf (ld.map SDim.val) x)) + (is.map v).sum := by
  obtain ⟨loops, h1, h2, -⟩ := C89_fold f lhs rhs m h ha lb ld hl
  have hs := ((h2 m').1 hm).1 x hx
  have hperm := pairwise_perm (h1 x).1 hnd fun i => by rw [his, (h1 x).2]
  rw [foldDefined_val _ val v (loops x) ?_ _ _ hs, (hperm.map _).sum_eq]
  intro i hi y z hz
  obtain ⟨q, hq, hz⟩ := Option.bind_eq_some_iff.1 hz
  rw [hv i ((hperm.mem_iff).1 hi) q hq, hf _ _ _ hz]

/-- C89: a sum does not overflow if there is room for all terms.  The accumulator holds numbers from `lo` to `hi`,
and adding is defined when the sum is one of them; all terms are at most `K` in magnitude.  If each element is at least
`n * K` away from both limits, where `n` is the number of its loop indices, the reduction is defined. -/
theorem C89_no_overflow {l r : τ} (f : C l → C r → Option (C l)) (lhs : EinOp (C l)) (rhs : MixedExpr C r)
    (m : TypedMem C) (h : MixedInput lhs rhs) (ha : einAssert lhs.untyped rhs.untyped = true) (lb : Int)
    (ld : List SDim) (hl : lhs.op = .arr (some lb) ld) (val : C l → Int) (w : C r → Int) (lo hi K : Int) (hK : 0 ≤ K)
    (hf : ∀ x y, lo ≤ val x + w y → val x + w y ≤ hi → ∃ z, f x y = some z ∧ val z = val x + w y)
    (hv : ∀ i, LoopIndex (shapesOf lhs rhs) i → ∃ y, mixedValue m i rhs = some y ∧ -K ≤ w y ∧ w y ≤ K)
    (hroom : ∀ x, InBox (ld.map SDim.val) x → ∀ is : List Index, is.Nodup →
      (∀ i, i ∈ is ↔ LoopIndex (shapesOf lhs rhs) i ∧ pick lhs.is i = x) →
      lo + is.length * K ≤ val (m l (lb + offsetOf (ld.map SDim.val) x)) ∧
      val (m l (lb + offsetOf (ld.map SDim.val) x)) ≤ hi - is.length * K) :
    ∃ m', mixedReduce f lhs rhs m = some m' := by
  obtain ⟨loops, h1, -, h3⟩ := C89_fold f lhs rhs m h ha lb ld hl
  rw [← Option.ne_none_iff_exists']
  intro hnone
  obtain ⟨x, hx, hx'⟩ := h3.1 hnone
  have hw : ∀ i ∈ loops x, ∃ y, mixedValue m i rhs = some y ∧ -K ≤ w y ∧ w y ≤ K :=
    fun i hi => hv i (((h1 x).2 i).1 hi).1
  have hroom' := hroom x hx (loops x) ((h1 x).1.imp fun h => h.ne) (h1 x).2
  obtain ⟨z, hz⟩ := foldDefined_isSome (fun y i => (mixedValue m i rhs).bind (f y)) val
    (fun i => ((mixedValue m i rhs).map w).getD 0) lo hi K hK (loops x)
    (fun i hi => by obtain ⟨y, hy, hy'⟩ := hw i hi; rw [hy]; exact hy')
    (fun i hi a => by
      obtain ⟨y, hy, -⟩ := hw i hi
      rw [hy]
      exact hf a y) _ hroom'.1 hroom'.2
  rw [hx'] at hz
  cases hz

/-- C89: with one element type and operators that are always defined this is the reduction of C41. -/
theorem C89_one_type {α : Type} (f : α → α → α) (lhs : EinOp α) (rhs : EinExpr α) (m : Mem α) :
    mixedReduce (C := fun _ : Unit => α) (l := ()) (r := ()) (fun x y => some (f x y)) lhs rhs.mixed (fun _ => m) =
      (einReduce f lhs rhs m).map fun m' _ => m' := by
  unfold mixedReduce einReduce
  rw [loopShape_mixed]
  cases (einLoopShape lhs rhs).forEachIndex with
  | none => rfl
  | some tr =>
    simp only [Option.bind_eq_bind, Option.bind_some]
    induction tr generalizing m with
    | nil => rfl
    | cons i tr ih =>
      simp only [List.foldlM_cons]
      have hs : mixedStep (C := fun _ : Unit => α) (l := ()) (r := ()) (fun x y => some (f x y)) lhs rhs.mixed
          (fun _ => m) i = (einStep f lhs rhs m i).map fun m' _ => m' := by
        unfold mixedStep einStep
        rw [eval_mixed]
        cases rhs.eval m i with
        | none => rfl
        | some y =>
          cases lhs.address i with
          | none => rfl
          | some a => exact congrArg some (funext fun u => by cases u; exact Function.update_self _ _ _)
      rw [hs]
      cases einStep f lhs rhs m i with
      | none => rfl
      | some m1 => exact ih m1

/-- C89, `equal(a, b)` with different element types: true exactly when the mins and extents are the same and no
pair of elements at the same index compares unequal. -/
theorem C89_equal {α β : Type} (ne : α → β → Bool) (ma : Mem α) (mb : Mem β) (a b : ArrayRef) (hnn : NonNeg b.shape)
    (hb : (∃ x y, a.base = some x ∧ b.base = some y) ∨ ¬ Pos b.shape) :
    equalBetween ne ma mb a b = true ↔
      a.shape.map Dim.min = b.shape.map Dim.min ∧ a.shape.map Dim.extent = b.shape.map Dim.extent ∧
      ∀ i x y, InBox a.shape i → a.base = some x → b.base = some y →
        ne (ma (x + offsetOf a.shape i)) (mb (y + offsetOf b.shape i)) = false :=
  C17_equal (fun p q : α × β => ne p.1 q.2) (fun x => (ma x, mb x)) a b hnn hb

/-- `ein<i>(x, n) * ein<i>(y, n)` with arrays `x`, `y` of `int8_t`; the products are `int`s. -/
def dotTerm (x y : Int) (n : Nat) : MixedExpr (fun _ : Elem => Int) .int32 :=
  .binary (s := .int8) (t := .int8) mulInt32 (.op (einPointer 0 (some x) n)) (.op (einPointer 0 (some y) n))

theorem einPointer_eq {α : Type} (x : Int) (n : Nat) :
    (einPointer 0 (some x) n : EinOp α) = ⟨.arr (some x) [⟨⟨0, dynamic, 1⟩, ⟨0, n, 1⟩⟩], [0]⟩ := by
  rfl

theorem dot_loopIndex (sum x y : Int) (n : Nat) (i : List Int) :
    LoopIndex (shapesOf (C := fun _ : Elem => Int) (l := .int32) (einScalar sum) (dotTerm x y n)) i ↔
    ∃ k : Int, i = [k] ∧ 0 ≤ k ∧ k < n := by
  have hr : loopRank (shapesOf (C := fun _ : Elem => Int) (l := .int32) (einScalar sum) (dotTerm x y n)) = 1 := rfl
  have hin : ∀ z k : Int, OpInRange (forget (einPointer (α := Int) 0 (some z) n)) [k] ↔ 0 ≤ k ∧ k < n := by
    intro z k
    rw [einPointer_eq]
    show InBox [⟨0, n, 1⟩] [k] ↔ _
    simp [InBox]
  unfold LoopIndex
  rw [hr]
  constructor
  · rintro ⟨hl, h, -⟩
    obtain ⟨k, rfl⟩ := List.length_eq_one_iff.1 hl
    exact ⟨k, rfl, (hin x k).1 (h _ (by simp [shapesOf, typedLeaves, dotTerm]))⟩
  · rintro ⟨k, rfl, h⟩
    refine ⟨rfl, ?_, ?_⟩
    · intro o ho
      simp only [shapesOf, typedLeaves, dotTerm, List.cons_append, List.nil_append, List.map_cons, List.map_nil,
        List.mem_cons, List.not_mem_nil, or_false] at ho
      rcases ho with rfl | rfl | rfl
      · trivial
      · exact (hin x k).2 h
      · exact (hin y k).2 h
    · intro k' hk' hno
      obtain rfl : k' = 0 := by omega
      exact absurd (show (0 : Nat) ∈ [0] by simp) (hno (forget (einPointer (α := Int) 0 (some x) n))
        (by simp [shapesOf, typedLeaves, dotTerm]))

theorem dot_input (sum x y : Int) (n : Nat) :
    MixedInput (C := fun _ : Elem => Int) (l := .int32) (einScalar sum) (dotTerm x y n) := by
  have hall : ∀ {P : EinOp Unit → Prop}, P (forget (einScalar (α := Int) sum)) →
      (∀ z, P ⟨.arr (some z) [⟨⟨0, dynamic, 1⟩, ⟨0, n, 1⟩⟩], [0]⟩) →
      ∀ o ∈ shapesOf (C := fun _ : Elem => Int) (l := .int32) (einScalar sum) (dotTerm x y n), P o := by
    intro P h1 h2 o ho
    simp only [shapesOf, typedLeaves, dotTerm, List.cons_append, List.nil_append, List.map_cons, List.map_nil,
      List.mem_cons, List.not_mem_nil, or_false] at ho
    rcases ho with rfl | rfl | rfl
    · exact h1
    · exact h2 x
    · exact h2 y
  refine ⟨hall ⟨rfl, by simp⟩ fun z => ⟨rfl, ?_⟩, hall (by intro d hd; cases hd) fun z => ?_,
    hall (fun p q k d e hp => by simp [forget, einScalar] at hp) fun z => ?_,
    hall (fun h => nomatch h) (fun z h => nomatch h), ?_, ?_⟩
  · intro d hd
    simp only [List.mem_cons, List.not_mem_nil, or_false] at hd
    subst hd
    simp [Fits, Describes, dynamic]
  · intro d hd
    simp only [einDims, List.map_cons, List.map_nil, List.mem_cons, List.not_mem_nil, or_false] at hd
    subst hd
    show (0 : Int) ≤ n
    omega
  · refine C42_no_repeat _ ?_
    simp
  · intro i j hi hj _
    have e : ∀ i, InBox (einDims (einScalar (α := Int) sum).op) i → i = [] := by
      intro i hi
      cases i with
      | nil => rfl
      | cons a l => exact absurd hi id
    rw [e i hi, e j hj]
  · intro o ho h
    simp only [typedLeaves, dotTerm, List.cons_append, List.nil_append, List.mem_cons, List.not_mem_nil,
      or_false] at ho
    rcases ho with rfl | rfl <;> cases h

theorem dot_assert (sum x y : Int) (n : Nat) :
    einAssert (einScalar (α := Int) sum).untyped (dotTerm x y n).untyped = true := by
  have h1 : einLoopRank (einScalar (α := Int) sum).untyped (dotTerm x y n).untyped = 1 := rfl
  have h2 : einLoopDims (einScalar (α := Int) sum).untyped (dotTerm x y n).untyped 0 =
      [⟨⟨0, dynamic, 0⟩, ⟨0, n, 0⟩⟩, ⟨⟨0, dynamic, 0⟩, ⟨0, n, 0⟩⟩] := rfl
  unfold einAssert
  rw [h1]
  simp [List.range_succ, h2, reconcileAssert, all, Nda.sum]

theorem dot_list (sum x y : Int) (n : Nat) : ∀ i, i ∈ ((List.range n).map fun k : Nat => [(k : Int)]) ↔
    LoopIndex (shapesOf (C := fun _ : Elem => Int) (l := .int32) (einScalar sum) (dotTerm x y n)) i ∧
      pick (einScalar (α := Int) sum).is i = [] := by
  intro i
  rw [dot_loopIndex, List.mem_map]
  constructor
  · rintro ⟨k, hk, rfl⟩
    rw [List.mem_range] at hk
    exact ⟨⟨k, rfl, by omega, by omega⟩, rfl⟩
  · rintro ⟨⟨k, rfl, h1, h2⟩, -⟩
    exact ⟨k.toNat, by rw [List.mem_range]; omega, by rw [Int.toNat_of_nonneg h1]⟩

theorem dot_nodup (n : Nat) : ((List.range n).map fun k : Nat => [(k : Int)]).Nodup := by
  refine List.Nodup.map ?_ List.nodup_range
  intro a b h
  simpa using h

/-- C89: a dot product `ein_reduce(ein(sum) += ein<i>(x, n) * ein<i>(y, n))` of arrays of `int8_t` in an `int` does not
overflow for up to 131071 elements; the result is exact, and nothing else changes. -/
theorem C89_dot (sum x y : Int) (n : Nat) (m : TypedMem fun _ : Elem => Int) (hn : n ≤ 131071)
    (h0 : m .int32 sum = 0) (h8 : ∀ a, -128 ≤ m .int8 a ∧ m .int8 a ≤ 127) :
    ∃ m', mixedReduce (l := .int32) addInt32 (einScalar sum) (dotTerm x y n) m = some m' ∧
      m' .int32 sum = ((List.range n).map fun k : Nat => m .int8 (x + k) * m .int8 (y + k)).sum ∧
      (∀ a, a ≠ sum → m' .int32 a = m .int32 a) ∧ m' .int8 = m .int8 := by
  have hprod : ∀ k : Int, -16384 ≤ m .int8 (x + k) * m .int8 (y + k) ∧ m .int8 (x + k) * m .int8 (y + k) ≤ 16384 := by
    intro k
    obtain ⟨h1, h2⟩ := h8 (x + k)
    obtain ⟨h3, h4⟩ := h8 (y + k)
    constructor <;> nlinarith
  have hval : ∀ k : Int, mixedValue m [k] (dotTerm x y n) = some (m .int8 (x + k) * m .int8 (y + k)) := by
    intro k
    have : mixedValue m [k] (dotTerm x y n) = mulInt32 (m .int8 (x + ((k - 0) * 1 + 0))) (m .int8 (y + ((k - 0) * 1 + 0))) := rfl
    rw [this]
    simp only [sub_zero, mul_one, add_zero]
    unfold mulInt32 asInt32
    rw [if_pos ⟨le_trans (by norm_num) (hprod k).1, le_trans (hprod k).2 (by norm_num)⟩]
  have hassert := dot_assert sum x y n
  have hlist := dot_list sum x y n
  have hnd := dot_nodup n
  obtain ⟨m', hm'⟩ := C89_no_overflow (l := .int32) addInt32 (einScalar sum) (dotTerm x y n) m (dot_input sum x y n) hassert
    sum [] rfl id id (-2147483648) 2147483647 16384 (by decide)
    (fun a b h1 h2 => ⟨a + b, by unfold addInt32 asInt32; rw [if_pos ⟨h1, h2⟩], rfl⟩)
    (by
      intro i hi
      obtain ⟨k, rfl, -⟩ := (dot_loopIndex sum x y n i).1 hi
      exact ⟨_, hval k, hprod k⟩)
    (by
      intro z hz is hnd' his
      have hz' : z = [] := by cases z with
        | nil => rfl
        | cons a l => exact absurd hz id
      subst hz'
      have hlen : is.length = n := by
        have := (List.perm_ext_iff_of_nodup hnd' hnd).2 fun i => by rw [his, hlist]
        rw [this.length_eq, List.length_map, List.length_range]
      rw [hlen]
      have : m .int32 (sum + offsetOf (([] : List SDim).map SDim.val) []) = 0 := by
        rw [← h0]; simp [offsetOf]
      rw [this]
      simp only [id]
      omega)
  obtain ⟨loops, -, h2, -⟩ := C89_fold (l := .int32) addInt32 (einScalar sum) (dotTerm x y n) m (dot_input sum x y n) hassert sum [] rfl
  obtain ⟨-, hf1, hf2⟩ := (h2 m').1 hm'
  refine ⟨m', hm', ?_, ?_, hf2 _ (by decide)⟩
  · have := C89_sum (l := .int32) addInt32 (einScalar sum) (dotTerm x y n) m m' (dot_input sum x y n) hassert sum [] rfl id id
      (fun a b z h => by
        unfold addInt32 asInt32 at h
        split at h
        · cases h; rfl
        · cases h) hm' [] trivial _ hnd hlist (fun i => m .int8 (x + i.getD 0 0) * m .int8 (y + i.getD 0 0))
      (by
        intro i hi v hv
        obtain ⟨k, -, rfl⟩ := List.mem_map.1 hi
        rw [hval k] at hv
        cases hv; rfl)
    simp only [offsetOf, List.map_nil, add_zero, id, h0, zero_add, List.map_map] at this
    rw [this]
    rfl
  · intro a ha
    refine hf1 a ?_
    rintro ⟨b, i, hb, hi, rfl⟩
    cases hb
    exact ha (by cases i with
      | nil => simp [offsetOf]
      | cons a l => exact absurd hi id)

/-- C89: 131071 is the most: with one element more the dot product of arrays that hold −128 everywhere overflows, and
is undefined. -/
theorem C89_dot_tight (sum x y : Int) (m : TypedMem fun _ : Elem => Int) (h0 : m .int32 sum = 0)
    (h8 : ∀ a, m .int8 a = -128) :
    mixedReduce (l := .int32) addInt32 (einScalar sum) (dotTerm x y 131072) m = none := by
  rw [Option.eq_none_iff_forall_ne_some]
  intro m' hm'
  have hadd : ∀ a b z, addInt32 a b = some z → z = a + b ∧ z ≤ 2147483647 := by
    intro a b z h
    unfold addInt32 asInt32 at h
    split at h
    · cases h; exact ⟨rfl, by omega⟩
    · cases h
  have hval : ∀ k : Int, mixedValue m [k] (dotTerm x y 131072) = some 16384 := by
    intro k
    have : mixedValue m [k] (dotTerm x y 131072) =
      mulInt32 (m .int8 (x + ((k - 0) * 1 + 0))) (m .int8 (y + ((k - 0) * 1 + 0))) := rfl
    rw [this, h8, h8]
    decide
  obtain ⟨loops, -, h2, -⟩ := C89_fold (l := .int32) addInt32 (einScalar sum) (dotTerm x y 131072) m
    (dot_input sum x y _) (dot_assert sum x y _) sum [] rfl
  have hle := foldDefined_inv _ (fun z : Int => z ≤ 2147483647)
    (fun a i z h => by
      obtain ⟨b, -, h⟩ := Option.bind_eq_some_iff.1 h
      exact (hadd _ _ _ h).2) _ _ _ (by
        simp only [offsetOf, List.map_nil, add_zero]
        rw [h0]; decide) (((h2 m').1 hm').1 [] trivial)
  have hs := C89_sum (l := .int32) addInt32 (einScalar sum) (dotTerm x y 131072) m m' (dot_input sum x y _)
    (dot_assert sum x y _) sum [] rfl id id (fun a b z h => (hadd a b z h).1) hm' [] trivial _ (dot_nodup _)
    (dot_list sum x y _) (fun _ => (16384 : Int))
    (by
      intro i hi v hv
      obtain ⟨k, -, rfl⟩ := List.mem_map.1 hi
      rw [hval k] at hv
      cases hv; rfl)
  simp only [offsetOf, List.map_nil, add_zero, id, h0, zero_add, List.map_map, List.map_const', List.sum_replicate,
    Function.comp_def, List.length_range] at hs hle
  rw [hs] at hle
  simp at hle

/- `x = {100, -3, 7}` at 0, `y = {5, 2, -128}` at 3. -/
example : (mixedReduce (l := Elem.int32) (C := fun _ : Elem => Int) addInt32 (einScalar 0) (dotTerm 0 3 3)
    fun t a => if t = .int8 then [100, -3, 7, 5, 2, -128].getD a.toNat 0 else 0).map (fun m => (m .int32 0, m .int32 1)) =
    some (500 - 6 - 896, 0) := by
  unfold mixedReduce
  rw [forEachIndex_eq (by unfold NonNeg; decide +kernel)]
  decide +kernel

/- The same with an `uint8_t` for the sum: arithmetic modulo 256. -/
example : (mixedReduce (l := Elem.int32) (C := fun _ : Elem => Int) (fun a b => some ((a + b) % 256)) (einScalar 0)
    (dotTerm 0 3 3)
    fun t a => if t = .int8 then [100, -3, 7, 5, 2, -128].getD a.toNat 0 else 0).map (fun m => m .int32 0) =
    some 110 := by
  unfold mixedReduce
  rw [forEachIndex_eq (by unfold NonNeg; decide +kernel)]
  decide +kernel

/- Comparing an array of integers with an array of booleans, at different addresses and with different strides. -/
example : equalBetween (fun (a : Int) (b : Bool) => a != (if b then 1 else 0)) (fun a => if a = 4 then 1 else 0)
    (fun a => a == 9) ⟨some 0, [⟨0, 3, 2⟩]⟩ ⟨some 5, [⟨0, 3, 2⟩]⟩ = true := by decide +kernel
example : equalBetween (fun (a : Int) (b : Bool) => a != (if b then 1 else 0)) (fun a => if a = 4 then 1 else 0)
    (fun a => a == 8) ⟨some 0, [⟨0, 3, 2⟩]⟩ ⟨some 5, [⟨0, 3, 1⟩]⟩ = false := by decide +kernel

end Nda
