import Verif.Spec.EinArray
import Verif.Lemmas.Ein
import Verif.Lemmas.ArrayRun
import Verif.Props.ArrayViews
/-
Einstein reductions in programs with arrays.
-/
namespace Nda
open Spec

variable {V : Type}

theorem mem_leaves_expr {e : EinTerm V} {o : EinOp V} (h : o ∈ leaves e.expr) :
    (∃ r ∈ termRefs e, o = r.op) ∨ ∃ f is, o = ⟨.fn f, is⟩ := by
  induction e with
  | ref r => left; exact ⟨r, by simp [termRefs], by simpa [EinTerm.expr, leaves] using h⟩
  | fn f is => right; exact ⟨f, is, by simpa [EinTerm.expr, leaves] using h⟩
  | unary f e ih => exact ih h
  | binary f a b iha ihb =>
    rcases List.mem_append.1 h with h | h
    · rcases iha h with ⟨r, hr, e⟩ | h
      · exact Or.inl ⟨r, List.mem_append.2 (Or.inl hr), e⟩
      · exact Or.inr h
    · rcases ihb h with ⟨r, hr, e⟩ | h
      · exact Or.inl ⟨r, List.mem_append.2 (Or.inr hr), e⟩
      · exact Or.inr h

theorem refs_mem_leaves {e : EinTerm V} {r : EinRef} (h : r ∈ termRefs e) : r.op ∈ leaves e.expr := by
  induction e with
  | ref q => simp only [termRefs, List.mem_singleton] at h; subst h; simp [EinTerm.expr, leaves]
  | fn f is => simp [termRefs] at h
  | unary f e ih => exact ih h
  | binary f a b iha ihb =>
    rcases List.mem_append.1 h with h | h
    · exact List.mem_append.2 (Or.inl (iha h))
    · exact List.mem_append.2 (Or.inr (ihb h))

theorem mem_ops {lhs : EinRef} {rhs : EinTerm V} {o : EinOp V} (h : o ∈ lhs.op :: leaves rhs.expr) :
    (∃ r ∈ lhs :: termRefs rhs, o = r.op) ∨ ∃ f is, o = ⟨.fn f, is⟩ := by
  rcases List.mem_cons.1 h with rfl | h
  · exact Or.inl ⟨lhs, by simp, rfl⟩
  · rcases mem_leaves_expr h with ⟨r, hr, e⟩ | h
    · exact Or.inl ⟨r, by simp [hr], e⟩
    · exact Or.inr h

theorem Spec.RefOk.opTyped {w : World V} {r : EinRef} (h : RefOk w r) : OpTyped (r.op : EinOp V) := h.typed

theorem Spec.RefOk.opConsistent {w : World V} {r : EinRef} (h : RefOk w r) : OpConsistent (r.op : EinOp V) := by
  intro p q k d e hp hq hd he
  simp only [EinRef.op, einDims, List.getElem?_map, Option.map_eq_some_iff] at hp hq hd he
  obtain ⟨x, hx, rfl⟩ := hd
  obtain ⟨y, hy, rfl⟩ := he
  exact h.consistent p q k x y hp hq hx hy

theorem Spec.RefOk.opNonNeg {w : World V} {r : EinRef} (h : RefOk w r) : NonNeg (einDims (r.op : EinOp V).op) := by
  obtain ⟨a, _, hp⟩ := h.part
  exact hp.nonNeg

section
variable {w : World V} {lhs : EinRef} {rhs : EinTerm V}

theorem Spec.EinArrays.typed (h : EinArrays w lhs rhs) : ∀ o ∈ (lhs.op : EinOp V) :: leaves rhs.expr, OpTyped o := by
  intro o ho
  rcases mem_ops ho with ⟨r, hr, rfl⟩ | ⟨f, is, rfl⟩
  · exact (h.refs r hr).opTyped
  · trivial

theorem Spec.EinArrays.nonNeg (h : EinArrays w lhs rhs) :
    ∀ o ∈ (lhs.op : EinOp V) :: leaves rhs.expr, NonNeg (einDims o.op) := by
  intro o ho
  rcases mem_ops ho with ⟨r, hr, rfl⟩ | ⟨f, is, rfl⟩
  · exact (h.refs r hr).opNonNeg
  · intro d hd; simp [einDims] at hd

theorem Spec.EinArrays.consistent (h : EinArrays w lhs rhs) :
    ∀ o ∈ (lhs.op : EinOp V) :: leaves rhs.expr, OpConsistent o := by
  intro o ho
  rcases mem_ops ho with ⟨r, hr, rfl⟩ | ⟨f, is, rfl⟩
  · exact (h.refs r hr).opConsistent
  · intro p q k d e _ _ hd; simp [einDims] at hd

theorem Spec.TermIndex.inBox {i : Index} (h : TermIndex lhs rhs i) {r : EinRef} (hr : r ∈ lhs :: termRefs rhs) :
    InBox (r.dims.map SDim.val) (pick r.is i) := by
  have : (r.op : EinOp V) ∈ (lhs.op : EinOp V) :: leaves rhs.expr := by
    rcases List.mem_cons.1 hr with rfl | hr
    · simp
    · simp [refs_mem_leaves hr]
  exact h.2.1 _ this

end

/-- Reading a view in the model. -/
theorem ref_read (w : World V) (r : EinRef) (i : Index) :
    (EinTerm.ref r).eval i w = refElem w r.x (r.dims.map SDim.val) r.off (pick r.is i) := by
  unfold EinTerm.eval EinRef.cell refElem
  cases h : w.get r.x with
  | error f => rfl
  | ok a =>
    rw [bind_ok, bind_ok]
    cases a.base with
    | none => rfl
    | some p => rfl

theorem eval_eq_termAt (w : World V) (i : Index) (e : EinTerm V) : e.eval i w = termAt w i e := by
  induction e with
  | ref r => exact ref_read w r i
  | fn f is => rfl
  | unary f e ih =>
    unfold EinTerm.eval termAt
    rw [ih]
    cases termAt w i e <;> rfl
  | binary f a b iha ihb =>
    unfold EinTerm.eval termAt
    rw [iha, ihb]
    cases termAt w i a with
    | error f => rfl
    | ok x => cases termAt w i b <;> rfl

/-- Expressions have values. -/
theorem termAt_ok {ty : Types V} {w : World V} (hI : Inv ty w) {e : EinTerm V} {i : Index}
    (h : ∀ r ∈ termRefs e, RefOk w r) (hi : ∀ r ∈ termRefs e, InBox (r.dims.map SDim.val) (pick r.is i)) :
    ∃ v, termAt w i e = .ok v := by
  induction e with
  | ref r =>
    obtain ⟨a, ha, hp⟩ := (h r (by simp [termRefs])).part
    exact refElem_ok hI ha (hp.sub _ (hi r (by simp [termRefs])))
  | fn f is => exact ⟨_, rfl⟩
  | unary f e ih =>
    obtain ⟨v, hv⟩ := ih h hi
    exact ⟨f v, by unfold termAt; rw [hv]; rfl⟩
  | binary f a b iha ihb =>
    obtain ⟨u, hu⟩ := iha (fun r hr => h r (by simp [termRefs, hr])) fun r hr => hi r (by simp [termRefs, hr])
    obtain ⟨v, hv⟩ := ihb (fun r hr => h r (by simp [termRefs, hr])) fun r hr => hi r (by simp [termRefs, hr])
    exact ⟨f u v, by unfold termAt; rw [hu, hv]; rfl⟩

/-- Values depend on the elements only. -/
theorem termAt_congr {w w' : World V} {e : EinTerm V} {i : Index}
    (h : ∀ r ∈ termRefs e, refElem w' r.x (r.dims.map SDim.val) r.off (pick r.is i) =
      refElem w r.x (r.dims.map SDim.val) r.off (pick r.is i)) : termAt w' i e = termAt w i e := by
  induction e with
  | ref r => exact h r (by simp [termRefs])
  | fn f is => rfl
  | unary f e ih => unfold termAt; rw [ih h]
  | binary f a b iha ihb =>
    unfold termAt
    rw [iha fun r hr => h r (by simp [termRefs, hr]), ihb fun r hr => h r (by simp [termRefs, hr])]

/-- One element is a view of rank 0. -/
theorem forEachRef_one (ty : Types V) (x : Nat) {a : Arr} {w : World V} (ha : w.vars x = some a) {b : Nat} {p : Int}
    (hb : a.base = some (b, p)) (off : Int) (f : V → V) :
    exec ty (.forEach x [] off fun _ v => f v) w = replaceAt b f (p + off) w := by
  simp only [exec]
  unfold forEachRef
  rw [get_ok ha, bind_ok, hb]
  have : Shape.forEachValue ([] : Shape) (some (p + off)) = [p + off] := by
    have h := forEachValue_perm ([] : Shape) (fun d hd => by simp at hd) (p + off)
    have hb : boxList ([] : Shape) = [[]] := by
      have h0 : ∀ i, i ∈ boxList ([] : Shape) ↔ i = [] := fun i => by
        rw [mem_boxList]; cases i <;> simp [InBox]
      have hnd := boxList_nodup ([] : Shape)
      have h1 := (List.perm_ext_iff_of_nodup hnd (List.nodup_singleton ([] : Index))).2 fun i => by rw [h0]; simp
      exact List.perm_singleton.1 h1
    rw [hb] at h
    simpa [offsetOf] using h
  dsimp only
  rw [this]
  simp only [List.zipIdx_cons, List.zipIdx_nil, List.foldlM_cons, List.foldlM_nil]
  cases replaceAt b f (p + off) w <;> rfl

/-- Folding over the indices of an element. -/
theorem update_fold {P : Type} (d : P → Nat × Int) (f : P → V → V) (tr : List P) (m : Nat × Int → Option V)
    (a : Nat × Int) [DecidablePred fun p => a = d p] :
    tr.foldl (fun m p a => if a = d p then (m a).map (f p) else m a) m a =
      (m a).map fun x => (tr.filter fun p => a = d p).foldl (fun x p => f p x) x := by
  induction tr generalizing m with
  | nil => simp
  | cons p tr ih =>
    rw [List.foldl_cons, ih]
    by_cases h : a = d p
    · rw [if_pos h, List.filter_cons_of_pos (by simpa using h)]
      cases m a <;> simp
    · rw [if_neg h, List.filter_cons_of_neg (by simpa using h)]

/-- One step of the loop. -/
theorem einStep_array {ty : Types V} (hdef : TypesOk ty) (f : V → V → V) {w0 w : World V} {lhs : EinRef} {rhs : EinTerm V}
    {a : Arr} (ha : w0.vars lhs.x = some a) (hpl : PartOk a (lhs.dims.map SDim.val) lhs.off) {i : Index}
    (hi : InBox (lhs.dims.map SDim.val) (pick lhs.is i)) {y : V} (hk : SameSkel w0 w) (hw : Reachable ty w)
    (hy : termAt w i rhs = .ok y) :
    ∃ w', einStepArray f lhs rhs i w = .ok w' ∧ SameSkel w w' ∧ Reachable ty w' ∧
      w'.cells = fun q => if q = a.cell (lhs.dims.map SDim.val) lhs.off (pick lhs.is i) then
        (w.cells q).map (fun x => f x y) else w.cells q := by
  have hI := hw.inv hdef
  have ha' : w.vars lhs.x = some a := by rw [hk.vars]; exact ha
  have hr := hpl.sub _ hi
  obtain ⟨b, blk, hh, _⟩ := (hI.good lhs.x a ha').full hr.1
  have hc : a.cell (lhs.dims.map SDim.val) lhs.off (pick lhs.is i) =
      (b, 0 - a.shape.flatMin + lhs.off + offsetOf (lhs.dims.map SDim.val) (pick lhs.is i)) := by
    unfold Arr.cell; rw [hh.base]
  have hal := hr.alive hI ha'
  rw [hc] at hal ⊢
  obtain ⟨w', e, hk', hcells⟩ := update_cells hal fun x => f x y
  refine ⟨w', ?_, hk', ?_, hcells⟩
  · unfold einStepArray
    rw [eval_eq_termAt, hy, bind_ok]
    unfold EinRef.cell
    rw [get_ok ha', bind_ok, hh.base]
    dsimp only
    rw [bind_ok]
    have : (values lhs.dims).flatOffset (einArgs lhs.is i) = offsetOf (lhs.dims.map SDim.val) (pick lhs.is i) := by
      rw [flatOffset_eq]; rfl
    rw [this]
    exact e
  · refine hw.exec (c := .forEach lhs.x [] (lhs.off + offsetOf (lhs.dims.map SDim.val) (pick lhs.is i)) fun _ v => f v y)
      (with_iff.2 ⟨a, ha', ⟨fun d hd => by simp at hd, ?_⟩⟩) ?_
    · intro j hj
      cases j with
      | cons _ _ => simp [InBox] at hj
      | nil =>
        obtain ⟨hb, k, hk1, hk2⟩ := hr
        exact ⟨hb, k, hk1, by rw [hk2]; simp [offsetOf]⟩
    · rw [forEachRef_one ty lhs.x ha' hh.base, ← Int.add_assoc]
      exact e

/-- The loop. -/
theorem einLoop_array {ty : Types V} (hdef : TypesOk ty) (f : V → V → V) {w0 : World V} {lhs : EinRef} {rhs : EinTerm V}
    (h : EinArrays w0 lhs rhs) {a : Arr} (ha : w0.vars lhs.x = some a) (hw0 : Reachable ty w0)
    (hpl : PartOk a (lhs.dims.map SDim.val) lhs.off) {g : Index → V} (tr : List Index)
    (htr : ∀ i ∈ tr, TermIndex lhs rhs i ∧ termAt w0 i rhs = .ok (g i)) (w : World V) (hk : SameSkel w0 w)
    (hw : Reachable ty w)
    (hc : ∀ q, (∀ r, InBox (lhs.dims.map SDim.val) r → q ≠ a.cell (lhs.dims.map SDim.val) lhs.off r) → w.cells q = w0.cells q) :
    ∃ w', tr.foldlM (fun w i => einStepArray f lhs rhs i w) w = .ok w' ∧ SameSkel w w' ∧ Reachable ty w' ∧
      w'.cells = tr.foldl (fun m i q => if q = a.cell (lhs.dims.map SDim.val) lhs.off (pick lhs.is i) then
        (m q).map (fun x => f x (g i)) else m q) w.cells := by
  induction tr generalizing w with
  | nil => exact ⟨w, rfl, SameSkel.refl w, hw, rfl⟩
  | cons i tr ih =>
    obtain ⟨hti, hgi⟩ := htr i (by simp)
    have hI0 := hw0.inv hdef
    have hI := hw.inv hdef
    have hil := hti.inBox (r := lhs) (by simp)
    have hyi : termAt w i rhs = .ok (g i) := by
      rw [← hgi]
      refine termAt_congr fun r hr => ?_
      have hrb := hti.inBox (r := r) (by simp [hr])
      obtain ⟨o, ho, hpo⟩ := (h.refs r (by simp [hr])).part
      have hrr := hpo.sub _ hrb
      have ho' : w.vars r.x = some o := by rw [hk.vars]; exact ho
      rw [refElem_eq hI0 hI ho ho' hrr hrr id]
      · cases refElem w0 r.x (r.dims.map SDim.val) r.off (pick r.is i) <;> rfl
      · rw [hc]
        · simp
        · intro t ht e
          obtain ⟨e1, e2⟩ := (cell_block hI0 ho ha hrr.1 (hpl.sub t ht).1).1 e
          exact h.apart r hr e1.symm t _ ht hrb e2.symm
    obtain ⟨w1, e1, k1, r1, c1⟩ := einStep_array hdef f ha hpl hil hk hw hyi
    obtain ⟨w2, e2, k2, r2, c2⟩ := ih (fun j hj => htr j (by simp [hj])) w1 (hk.trans k1) r1 (by
      intro q hq
      rw [c1]
      dsimp only
      rw [if_neg (hq _ hil), hc q hq])
    refine ⟨w2, ?_, k1.trans k2, r2, ?_⟩
    · rw [List.foldlM_cons, e1]; exact e2
    · rw [c2, List.foldl_cons, c1]

end Nda
