import Mathlib.Data.List.Perm.Basic
import Verif.Lemmas.ArrayMake
/-
Algorithms on views of arrays.
-/
namespace Nda
open Spec

variable {V : Type} [Hollow V]

/-! ### Cells -/

/-- The values of all elements. -/
def World.cells (w : World V) (p : Nat × Int) : Option V := (w.heap p.1).map fun blk => blk.val p.2

/-- The same but for values. -/
structure SameSkel (w w' : World V) : Prop where
  vars : w'.vars = w.vars
  nextVar : w'.nextVar = w.nextVar
  nextBlock : w'.nextBlock = w.nextBlock
  skel : ∀ c, w'.skel c = w.skel c

theorem SameSkel.refl (w : World V) : SameSkel w w := ⟨rfl, rfl, rfl, fun _ => rfl⟩

theorem SameSkel.trans {w w' w'' : World V} (h : SameSkel w w') (h' : SameSkel w' w'') : SameSkel w w'' :=
  ⟨h'.vars.trans h.vars, h'.nextVar.trans h.nextVar, h'.nextBlock.trans h.nextBlock,
    fun c => (h'.skel c).trans (h.skel c)⟩

theorem SameSkel.inv {ty : Types V} {w w' : World V} (h : SameSkel w w') (hI : Inv ty w) : Inv ty w' :=
  hI.of_skel h.vars h.nextVar h.nextBlock h.skel

/-- There is a live element. -/
def Alive (w : World V) (p : Nat × Int) : Prop :=
  ∃ blk, w.heap p.1 = some blk ∧ 0 ≤ p.2 ∧ p.2 < blk.size ∧ 0 < blk.live p.2

theorem SameSkel.alive {w w' : World V} (h : SameSkel w w') {p : Nat × Int} (hp : Alive w p) : Alive w' p := by
  obtain ⟨blk, h1, h2, h3, h4⟩ := hp
  have hs := h.skel p.1
  rw [skel_some h1] at hs
  unfold World.skel at hs
  cases hb : w'.heap p.1 with
  | none => rw [hb] at hs; simp at hs
  | some blk' =>
    rw [hb] at hs
    simp only [Option.map_some, Option.some.injEq, Block.skel, Prod.mk.injEq] at hs
    exact ⟨blk', hb, h2, by rw [hs.2.1]; exact h3, by rw [hs.2.2]; exact h4⟩

theorem Alive.read {w : World V} {b : Nat} {o : Int} (h : Alive w (b, o)) :
    ∃ v, readAt w b o = .ok v ∧ w.cells (b, o) = some v := by
  obtain ⟨blk, h1, h2, h3, h4⟩ := h
  exact ⟨_, readAt_ok h1 h2 h3 h4, by simp only [World.cells, h1, Option.map_some]⟩

theorem SameBut.sameSkel {w w' : World V} {b : Nat} {blk : Block V} (h : SameBut (· = b) w w')
    (hb : w.heap b = some blk) {val : Int → V} (hb' : w'.heap b = some { blk with val := val }) :
    SameSkel w w' ∧ ∀ p, w'.cells p = if p.1 = b then some (val p.2) else w.cells p := by
  refine ⟨⟨h.vars, h.nextVar, h.nextBlock, fun c => ?_⟩, fun p => ?_⟩
  · by_cases hc : c = b
    · subst hc; rw [skel_some hb, skel_some hb']
    · unfold World.skel; rw [h.heap c hc]
  · unfold World.cells
    by_cases hp : p.1 = b
    · rw [if_pos hp, hp, hb']; rfl
    · rw [if_neg hp, h.heap _ hp]

theorem assign_cells {w : World V} {b : Nat} {o : Int} (h : Alive w (b, o)) (k : Call) (v : V) :
    ∃ w', assignAt k b o v w = .ok w' ∧ SameSkel w w' ∧
      w'.cells = fun p => if p = (b, o) then some v else w.cells p := by
  obtain ⟨blk, h1, h2, h3, h4⟩ := h
  obtain ⟨w', e, hs, _, hb⟩ := assignAt_ok h1 h2 h3 h4 k v
  obtain ⟨hk, hc⟩ := hs.sameSkel h1 hb
  refine ⟨w', e, hk, funext fun p => ?_⟩
  obtain ⟨c, q⟩ := p
  rw [hc]
  simp only [Prod.mk.injEq]
  by_cases hp : c = b
  · subst hp
    simp only [true_and, if_true]
    by_cases hq : q = o
    · simp [hq]
    · simp [hq, World.cells, h1]
  · simp [hp]

theorem movedFrom_cells {ty : Types V} {w : World V} {b : Nat} {o : Int} (h : Alive w (b, o)) :
    ∃ w', movedFromAt ty b o w = .ok w' ∧ SameSkel w w' ∧
      w'.cells = fun p => if p = (b, o) then (w.cells (b, o)).map ty.moved else w.cells p := by
  obtain ⟨blk, h1, h2, h3, h4⟩ := h
  obtain ⟨w', e, hs, _, hb⟩ := movedFromAt_ok h1 h2 h3 ty
  obtain ⟨hk, hc⟩ := hs.sameSkel h1 hb
  refine ⟨w', e, hk, funext fun p => ?_⟩
  obtain ⟨c, q⟩ := p
  rw [hc]
  simp only [Prod.mk.injEq]
  by_cases hp : c = b
  · subst hp
    simp only [true_and, if_true]
    by_cases hq : q = o
    · simp [hq, World.cells, h1]
    · simp [hq, World.cells, h1]
  · simp [hp]

/-- What one assignment does. -/
def transferCell (keep : Bool) (ty : Types V) (s d : Nat × Int) (m : Nat × Int → Option V) (p : Nat × Int) :
    Option V :=
  if p = d then m s else if keep = false ∧ p = s then (m s).map ty.moved else m p

theorem transfer_cells (keep : Bool) {ty : Types V} {w : World V} {bs bd : Nat} {p : Int × Int}
    (hs : Alive w (bs, p.1)) (hd : Alive w (bd, p.2)) :
    ∃ w', (if keep then copyAssignAt else moveAssignAt ty) bs bd p w = .ok w' ∧ SameSkel w w' ∧
      w'.cells = transferCell keep ty (bs, p.1) (bd, p.2) w.cells := by
  obtain ⟨v, hv, hcv⟩ := hs.read
  cases keep with
  | true =>
    obtain ⟨w', e, hk, hc⟩ := assign_cells hd .copyAssign v
    refine ⟨w', ?_, hk, ?_⟩
    · rw [if_pos rfl]
      unfold copyAssignAt
      rw [hv]
      exact e
    · rw [hc]
      funext q
      simp [transferCell, hcv]
  | false =>
    obtain ⟨w1, e1, hk1, hc1⟩ := movedFrom_cells (ty := ty) hs
    obtain ⟨w', e, hk, hc⟩ := assign_cells (hk1.alive hd) .moveAssign v
    refine ⟨w', ?_, hk1.trans hk, ?_⟩
    · rw [if_neg (by simp)]
      unfold moveAssignAt
      rw [hv, bind_ok, e1]
      exact e
    · rw [hc, hc1]
      funext q
      simp [transferCell, hcv]

theorem update_cells {w : World V} {b : Nat} {o : Int} (h : Alive w (b, o)) (f : V → V) :
    ∃ w', replaceAt b f o w = .ok w' ∧ SameSkel w w' ∧
      w'.cells = fun p => if p = (b, o) then (w.cells p).map f else w.cells p := by
  obtain ⟨v, hv, hcv⟩ := h.read
  obtain ⟨w', e, hk, hc⟩ := assign_cells h .copyAssign (f v)
  refine ⟨w', ?_, hk, ?_⟩
  · unfold replaceAt
    rw [hv]
    exact e
  · rw [hc]
    funext q
    by_cases hq : q = (b, o)
    · simp [hq, hcv]
    · simp [hq]

/-- A loop of such steps. -/
theorem loop_cells {P : Type} (f : P → World V → Except Fault (World V))
    (u : P → (Nat × Int → Option V) → Nat × Int → Option V) (ok : P → World V → Prop) (tr : List P)
    (hmono : ∀ p ∈ tr, ∀ w w', SameSkel w w' → ok p w → ok p w')
    (hstep : ∀ p ∈ tr, ∀ w, ok p w → ∃ w', f p w = .ok w' ∧ SameSkel w w' ∧ w'.cells = u p w.cells)
    (w : World V) (hok : ∀ p ∈ tr, ok p w) :
    ∃ w', tr.foldlM (fun w p => f p w) w = .ok w' ∧ SameSkel w w' ∧
      w'.cells = tr.foldl (fun m p => u p m) w.cells := by
  induction tr generalizing w with
  | nil => exact ⟨w, rfl, SameSkel.refl w, rfl⟩
  | cons p tr ih =>
    obtain ⟨w1, e1, k1, c1⟩ := hstep p (by simp) w (hok p (by simp))
    obtain ⟨w2, e2, k2, c2⟩ := ih (fun q hq => hmono q (by simp [hq])) (fun q hq => hstep q (by simp [hq])) w1
      (fun q hq => hmono q (by simp [hq]) w w1 k1 (hok q (by simp [hq])))
    refine ⟨w2, ?_, k1.trans k2, ?_⟩
    · rw [List.foldlM_cons, e1]; exact e2
    · rw [c2, List.foldl_cons, c1]

/-! ### Folds -/

section
variable {P : Type} (keep : Bool) (ty : Types V) (s d : P → Nat × Int)

theorem transfer_frame (tr : List P) (m : Nat × Int → Option V) (a : Nat × Int) (hd : ∀ p ∈ tr, d p ≠ a)
    (hs : keep = false → ∀ p ∈ tr, s p ≠ a) :
    tr.foldl (fun m p => transferCell keep ty (s p) (d p) m) m a = m a := by
  induction tr generalizing m with
  | nil => rfl
  | cons p tr ih =>
    rw [List.foldl_cons, ih _ (fun q hq => hd q (by simp [hq])) fun hk q hq => hs hk q (by simp [hq])]
    unfold transferCell
    rw [if_neg fun e => hd p (by simp) e.symm, if_neg fun e => hs e.1 p (by simp) e.2.symm]

/-- The destination of `p` gets the value of the source of `p`. -/
theorem transfer_value (tr : List P) (m : Nat × Int → Option V) (p : P) (hp : p ∈ tr) (hnd : tr.Nodup)
    (hd : ∀ q ∈ tr, d q = d p → q = p) (hds : ∀ q ∈ tr, d q = s p → q = p)
    (hs : keep = false → ∀ q ∈ tr, (s q = s p → q = p) ∧ (s q = d p → q = p)) :
    tr.foldl (fun m p => transferCell keep ty (s p) (d p) m) m (d p) = m (s p) := by
  induction tr generalizing m with
  | nil => simp at hp
  | cons q tr ih =>
    rw [List.nodup_cons] at hnd
    rw [List.foldl_cons]
    by_cases hqp : q = p
    · subst hqp
      rw [transfer_frame]
      · unfold transferCell; rw [if_pos rfl]
      · intro r hr e
        exact hnd.1 (hd r (by simp [hr]) e ▸ hr)
      · intro hk r hr e
        exact hnd.1 ((hs hk r (by simp [hr])).2 e ▸ hr)
    · have hp' : p ∈ tr := by simpa [Ne.symm hqp] using hp
      rw [ih _ hp' hnd.2 (fun r hr => hd r (by simp [hr])) (fun r hr => hds r (by simp [hr]))
        fun hk r hr => hs hk r (by simp [hr])]
      unfold transferCell
      rw [if_neg fun e => hqp (hds q (by simp) e.symm), if_neg fun e => hqp ((hs e.1 q (by simp)).1 e.2.symm)]

/-- Without overlap of sources and destinations, an address has the value of the last source copied there. -/
theorem transfer_last (tr : List P) (m : Nat × Int → Option V) (a : Nat × Int) (ha : ∃ p ∈ tr, d p = a)
    (hds : ∀ p ∈ tr, ∀ q ∈ tr, d q ≠ s p) :
    ∃ p ∈ tr, d p = a ∧ tr.foldl (fun m p => transferCell true ty (s p) (d p) m) m a = m (s p) := by
  induction tr generalizing m with
  | nil => simp at ha
  | cons q tr ih =>
    rw [List.foldl_cons]
    by_cases h : ∃ p ∈ tr, d p = a
    · obtain ⟨p, hp, h1, h2⟩ := ih (transferCell true ty (s q) (d q) m) h
        fun p hp r hr => hds p (by simp [hp]) r (by simp [hr])
      refine ⟨p, by simp [hp], h1, h2.trans ?_⟩
      unfold transferCell
      rw [if_neg fun e => hds p (by simp [hp]) q (by simp) e.symm]
      simp
    · obtain ⟨p, hp, e⟩ := ha
      rcases List.mem_cons.1 hp with rfl | hp
      · refine ⟨p, by simp, e, ?_⟩
        rw [transfer_frame true ty s d tr _ a (fun r hr e => h ⟨r, hr, e⟩) (by simp)]
        unfold transferCell
        rw [if_pos e.symm]
      · exact absurd ⟨p, hp, e⟩ h

/-- The source of `p` has been moved from. -/
theorem transfer_moved (tr : List P) (m : Nat × Int → Option V) (p : P) (hp : p ∈ tr) (hnd : tr.Nodup)
    (hds : ∀ q ∈ tr, d q ≠ s p) (hs : ∀ q ∈ tr, s q = s p → q = p) :
    tr.foldl (fun m p => transferCell false ty (s p) (d p) m) m (s p) = (m (s p)).map ty.moved := by
  induction tr generalizing m with
  | nil => simp at hp
  | cons q tr ih =>
    rw [List.nodup_cons] at hnd
    rw [List.foldl_cons]
    by_cases hqp : q = p
    · subst hqp
      rw [transfer_frame]
      · unfold transferCell
        rw [if_neg fun e => hds q (by simp) e.symm, if_pos ⟨rfl, rfl⟩]
      · intro r hr e
        exact hds r (by simp [hr]) e
      · intro hk r hr e
        exact hnd.1 (hs r (by simp [hr]) e ▸ hr)
    · have hp' : p ∈ tr := by simpa [Ne.symm hqp] using hp
      rw [ih _ hp' hnd.2 (fun r hr => hds r (by simp [hr])) fun r hr => hs r (by simp [hr])]
      unfold transferCell
      rw [if_neg fun e => hds q (by simp) e.symm, if_neg fun e => hqp (hs q (by simp) e.2.symm)]

/-- Updates in sequence. -/
theorem update_frame (f : P → V → V) (tr : List P) (m : Nat × Int → Option V) (a : Nat × Int)
    (hd : ∀ p ∈ tr, d p ≠ a) :
    tr.foldl (fun m p a => if a = d p then (m a).map (f p) else m a) m a = m a := by
  induction tr generalizing m with
  | nil => rfl
  | cons p tr ih =>
    rw [List.foldl_cons, ih _ (fun q hq => hd q (by simp [hq])), if_neg fun e => hd p (by simp) e.symm]

theorem update_value (f : P → V → V) (tr : List P) (m : Nat × Int → Option V) (p : P) (hp : p ∈ tr)
    (hnd : tr.Nodup) (hd : ∀ q ∈ tr, d q = d p → q = p) :
    tr.foldl (fun m p a => if a = d p then (m a).map (f p) else m a) m (d p) = (m (d p)).map (f p) := by
  induction tr generalizing m with
  | nil => simp at hp
  | cons q tr ih =>
    rw [List.nodup_cons] at hnd
    rw [List.foldl_cons]
    by_cases hqp : q = p
    · subst hqp
      rw [update_frame]
      · rw [if_pos rfl]
      · intro r hr e
        exact hnd.1 (hd r (by simp [hr]) e ▸ hr)
    · have hp' : p ∈ tr := by simpa [Ne.symm hqp] using hp
      rw [ih _ hp' hnd.2 (fun r hr => hd r (by simp [hr])), if_neg fun e => hqp (hd q (by simp) e.symm)]

/-- If all updates of an address give `v`, then `v` is there. -/
theorem update_const (f : P → V → V) (v : V) (tr : List P) (m : Nat × Int → Option V) (a : Nat × Int)
    (hf : ∀ p ∈ tr, ∀ u, f p u = v) (hm : m a ≠ none) (ha : ∃ p ∈ tr, d p = a) :
    tr.foldl (fun m p a => if a = d p then (m a).map (f p) else m a) m a = some v := by
  have key : ∀ (tr : List P) (m : Nat × Int → Option V), (∀ p ∈ tr, ∀ u, f p u = v) → m a = some v →
      tr.foldl (fun m p a => if a = d p then (m a).map (f p) else m a) m a = some v := by
    intro tr
    induction tr with
    | nil => intro m _ h; exact h
    | cons q tr ih =>
      intro m hf h
      rw [List.foldl_cons]
      apply ih _ (fun p hp => hf p (by simp [hp]))
      split
      · rw [h, Option.map_some, hf q (by simp)]
      · exact h
  induction tr generalizing m with
  | nil => simp at ha
  | cons q tr ih =>
    rw [List.foldl_cons]
    obtain ⟨u, hu⟩ := Option.ne_none_iff_exists'.1 hm
    by_cases hq : a = d q
    · apply key _ _ (fun p hp => hf p (by simp [hp]))
      rw [if_pos hq, hu, Option.map_some, hf q (by simp)]
    · apply ih _ (fun p hp => hf p (by simp [hp]))
      · rw [if_neg hq]; exact hm
      · obtain ⟨p, hp, e⟩ := ha
        rcases List.mem_cons.1 hp with rfl | hp
        · exact absurd e.symm hq
        · exact ⟨p, hp, e⟩

end

/-! ### Views -/

/-- The address of an element of a view. -/
def Arr.cell (o : Arr) (s : Shape) (off : Int) (i : Index) : Nat × Int :=
  match o.base with
  | none => (0, 0)
  | some (b, p) => (b, p + off + offsetOf s i)

theorem Arr.cell_self (o : Arr) (j : Index) : o.cell o.shape 0 j =
    match o.base with
    | none => (0, 0)
    | some (b, p) => (b, p + offsetOf o.shape j) := by
  unfold Arr.cell; split <;> simp

theorem Refers.alive {ty : Types V} {w : World V} (hI : Inv ty w) {y : Nat} {o : Arr} (ho : w.vars y = some o)
    {s : Shape} {off : Int} {i : Index} (h : Refers o s off i) : Alive w (o.cell s off i) := by
  obtain ⟨hb, j, hj, e⟩ := h
  obtain ⟨b, blk, hh, hl⟩ := (hI.good y o ho).full hb
  unfold Arr.cell
  rw [hh.base]
  have := elem_range hj
  refine ⟨blk, hh.heap, ?_, ?_, ?_⟩
  · dsimp only; omega
  · rw [hh.size]; dsimp only; omega
  · rw [hl, cnt_pos_iff]; exact ⟨j, hj, by dsimp only; omega⟩

theorem refElem_cells {ty : Types V} {w : World V} (hI : Inv ty w) {y : Nat} {o : Arr} (ho : w.vars y = some o)
    {s : Shape} {off : Int} {i : Index} (h : Refers o s off i) {v : V} :
    refElem w y s off i = .ok v ↔ w.cells (o.cell s off i) = some v := by
  have ha := h.alive hI ho
  obtain ⟨b, blk, hh, _⟩ := (hI.good y o ho).full h.1
  have hc : o.cell s off i = (b, 0 - o.shape.flatMin + off + offsetOf s i) := by
    unfold Arr.cell; rw [hh.base]
  rw [hc] at ha ⊢
  obtain ⟨u, h1, h2⟩ := ha.read
  unfold refElem
  rw [get_ok ho, bind_ok, hh.base]
  dsimp only
  rw [flatOffset_eq, h1, h2]
  simp

theorem refElem_ok {ty : Types V} {w : World V} (hI : Inv ty w) {y : Nat} {o : Arr} (ho : w.vars y = some o)
    {s : Shape} {off : Int} {i : Index} (h : Refers o s off i) : ∃ v, refElem w y s off i = .ok v := by
  obtain ⟨u, _, h2⟩ := (h.alive hI ho).read (b := (o.cell s off i).1) (o := (o.cell s off i).2)
  exact ⟨u, (refElem_cells hI ho h).2 h2⟩

/-- Equal cells give equal elements. -/
theorem refElem_eq {ty : Types V} {w w' : World V} (hI : Inv ty w) (hI' : Inv ty w') {y x : Nat} {o a : Arr}
    (ho : w.vars y = some o) (ha : w'.vars x = some a) {s t : Shape} {off off' : Int} {i j : Index}
    (h : Refers o s off i) (h' : Refers a t off' j) (f : V → V)
    (e : w'.cells (a.cell t off' j) = (w.cells (o.cell s off i)).map f) :
    refElem w' x t off' j = (refElem w y s off i).map f := by
  obtain ⟨v, hv⟩ := refElem_ok hI ho h
  have h1 := (refElem_cells hI ho h).1 hv
  rw [h1] at e
  rw [hv, (refElem_cells hI' ha h').2 e]
  rfl

theorem refers_self {o : Arr} (hb : o.base ≠ none) {j : Index} (hj : InBox o.shape j) : Refers o o.shape 0 j :=
  ⟨hb, j, hj, by omega⟩

theorem elem_refElem {w : World V} (y : Nat) {o : Arr} (ho : w.vars y = some o) (i : Index) :
    elem w y i = refElem w y o.shape 0 i := by
  unfold elem refElem
  rw [get_ok ho, bind_ok, bind_ok]
  cases o.base with
  | none => rfl
  | some p => simp

/-- Cells of different arrays differ. -/
theorem cell_block {ty : Types V} {w : World V} (hI : Inv ty w) {y x : Nat} {o a : Arr} (ho : w.vars y = some o)
    (ha : w.vars x = some a) (hbo : o.base ≠ none) (hba : a.base ≠ none) {s t : Shape} {off off' : Int}
    {i j : Index} : o.cell s off i = a.cell t off' j ↔ y = x ∧ off + offsetOf s i = off' + offsetOf t j := by
  obtain ⟨b, blk, hh, _⟩ := (hI.good y o ho).full hbo
  obtain ⟨c, blk', hh', _⟩ := (hI.good x a ha).full hba
  unfold Arr.cell
  rw [hh.base, hh'.base]
  simp only [Prod.mk.injEq]
  constructor
  · rintro ⟨rfl, e⟩
    have hxy := hI.disj y x o a b 0 0 ho ha hh.buffer hh'.buffer
    subst hxy
    rw [ho] at ha
    simp only [Option.some.injEq] at ha
    subst ha
    exact ⟨rfl, by omega⟩
  · rintro ⟨rfl, e⟩
    rw [ho] at ha
    simp only [Option.some.injEq] at ha
    subst ha
    have : b = c := by have := hh.buffer; rw [hh'.buffer] at this; simpa using this.symm
    exact ⟨this, by omega⟩

/-- Elements that are not among the changed cells stay. -/
theorem elem_frame {ty : Types V} {w w' : World V} (hI : Inv ty w) (hk : SameSkel w w') {z : Nat} {c : Arr}
    (hz : w.vars z = some c) {j : Index} (hj : InBox c.shape j)
    (e : c.base ≠ none → w'.cells (c.cell c.shape 0 j) = w.cells (c.cell c.shape 0 j)) :
    elem w' z j = elem w z j := by
  have hz' : w'.vars z = some c := by rw [hk.vars]; exact hz
  by_cases hb : c.base = none
  · unfold elem
    rw [get_ok hz, get_ok hz', bind_ok, bind_ok, hb]
  · have := refElem_eq hI (hk.inv hI) hz hz' (refers_self hb hj) (refers_self hb hj) id (by simp [e hb])
    rw [elem_refElem z hz, elem_refElem z hz', this]
    cases refElem w z c.shape 0 j <;> rfl

/-- `Step` from equal cells. -/
theorem SameSkel.step {T : Nat → Prop} {w w' : World V} (hk : SameSkel w w')
    (h : ∀ z c b q, ¬ T z → w.vars z = some c → c.buffer = some (b, 0) → w'.cells (b, q) = w.cells (b, q)) :
    Step T w w' := by
  refine ⟨fun z _ => by rw [hk.vars], fun z c b hz hc hb => ?_⟩
  have hs := hk.skel b
  have hcell : ∀ q, w'.cells (b, q) = w.cells (b, q) := fun q => h z c b q hz hc hb
  unfold World.skel at hs
  unfold World.cells at hcell
  dsimp only at hcell
  cases h1 : w.heap b with
  | none =>
    rw [h1] at hs
    simpa using hs
  | some blk =>
    rw [h1] at hs hcell
    cases h2 : w'.heap b with
    | none => rw [h2] at hs; simp at hs
    | some blk' =>
      rw [h2] at hs hcell
      simp only [Option.map_some, Option.some.injEq, Block.skel, Prod.mk.injEq] at hs hcell
      obtain ⟨a1, a2, a3, a4⟩ := blk
      obtain ⟨b1, b2, b3, b4⟩ := blk'
      simp only at hs hcell
      obtain ⟨rfl, rfl, rfl⟩ := hs
      rw [show b4 = a4 from funext hcell]

theorem perm_map_exists {A B : Type} {f : A → B} {l : List B} {l2 : List A} (h : l.Perm (l2.map f)) :
    ∃ tr : List A, l = tr.map f ∧ tr.Perm l2 := by
  have := List.eq_map_comp_perm f
  have h2 : (Relation.Comp (fun (a : List B) b => a = List.map f b) (fun (a b : List A) => a.Perm b)) l l2 := by
    rw [this]; exact h
  exact h2

theorem perm_boxList {s : Shape} {tr : List Index} (h : tr.Perm (boxList s)) : Enumerates s tr :=
  ⟨h.nodup_iff.2 (boxList_nodup s), fun i => by rw [h.mem_iff, mem_boxList]⟩

theorem min_inBox {s : Shape} (h : Pos s) : InBox s (s.map Dim.min) := by
  have : ∀ {t : List Dim}, Pos t → InBox t (t.map Dim.min) := by
    intro t
    induction t with
    | nil => intro _; trivial
    | cons d ds ih =>
      intro h
      obtain ⟨h1, h2⟩ := pos_cons.1 h
      exact ⟨⟨le_rfl, by omega⟩, ih h2⟩
  exact this h

theorem assignRef_ok (keep : Bool) {ty : Types V} {w : World V} {y x : Nat} {o a : Arr} {src dst : Shape}
    {soff doff : Int} (hI : Inv ty w) (ho : w.vars y = some o) (ha : w.vars x = some a)
    (hv : PairOk o src soff a dst doff) :
    ∃ w' tr, assignRef keep ty y src soff x dst doff w = .ok w' ∧ SameSkel w w' ∧ Enumerates dst tr ∧
      w'.cells = tr.foldl (fun m i => transferCell keep ty (o.cell src soff i) (a.cell dst doff i) m) w.cells := by
  unfold assignRef
  rw [get_ok ho, bind_ok, get_ok ha, bind_ok]
  unfold assignElements
  have hempty := empty_iff_not_pos hv.nonNegDst
  by_cases hp : Pos dst
  swap
  · rw [if_pos (hempty.2 hp)]
    refine ⟨w, [], rfl, SameSkel.refl w, ⟨List.nodup_nil, fun i => ?_⟩, rfl⟩
    simp only [List.not_mem_nil, false_iff]
    exact fun h => hp (pos_of_inBox h)
  · rw [if_neg fun h => hempty.1 h hp]
    rw [assert_ok (fun _ => (C16_assert_iff src dst hv.rank hp).2 fun i hi => (hv.sub i hi).1), bind_ok]
    obtain ⟨_, hob, hab⟩ := hv.sub _ (min_inBox hp)
    obtain ⟨b, blk, hh, _⟩ := (hI.good y o ho).full hob.1
    obtain ⟨c, blk', hh', _⟩ := (hI.good x a ha).full hab.1
    have hperm := copyForEachValue_perm' hv.rank hv.nonNegSrc (0 - o.shape.flatMin + soff)
      (0 - a.shape.flatMin + doff)
    obtain ⟨tr, htr, hpt⟩ := perm_map_exists hperm
    have hen := perm_boxList hpt
    unfold forEachPair
    rw [hh.base, hh'.base]
    dsimp only [Option.map_some]
    rw [htr, List.foldlM_map]
    have hcs : ∀ i, o.cell src soff i = (b, 0 - o.shape.flatMin + soff + offsetOf src i) := by
      intro i; unfold Arr.cell; rw [hh.base]
    have hcd : ∀ i, a.cell dst doff i = (c, 0 - a.shape.flatMin + doff + offsetOf dst i) := by
      intro i; unfold Arr.cell; rw [hh'.base]
    obtain ⟨w', e, hk, hc⟩ := loop_cells
      (fun i => (if keep then copyAssignAt else moveAssignAt ty) b c
        (0 - o.shape.flatMin + soff + offsetOf src i, 0 - a.shape.flatMin + doff + offsetOf dst i))
      (fun i m => transferCell keep ty (o.cell src soff i) (a.cell dst doff i) m)
      (fun i w => Alive w (o.cell src soff i) ∧ Alive w (a.cell dst doff i)) tr
      (fun i _ w w' hk h => ⟨hk.alive h.1, hk.alive h.2⟩)
      (fun i _ w h => by
        rw [hcs, hcd] at h ⊢
        exact transfer_cells keep h.1 h.2)
      w (fun i hi => ⟨(hv.sub i ((hen.2 i).1 hi)).2.1.alive hI ho, (hv.sub i ((hen.2 i).1 hi)).2.2.alive hI ha⟩)
    exact ⟨w', tr, e, hk, hen, hc⟩

theorem forEachRef_ok {ty : Types V} {w : World V} {x : Nat} {a : Arr} {s : Shape} {off : Int}
    (f : Nat → V → V) (hI : Inv ty w) (ha : w.vars x = some a) (hv : PartOk a s off) :
    ∃ w' tr, forEachRef ty x s off f w = .ok w' ∧ SameSkel w w' ∧ Enumerates s tr ∧
      w'.cells = tr.zipIdx.foldl (fun m p q => if q = a.cell s off p.1 then (m q).map (f p.2) else m q) w.cells := by
  unfold forEachRef
  rw [get_ok ha, bind_ok]
  by_cases hp : Pos s
  swap
  · have hen : Enumerates s [] := ⟨List.nodup_nil, fun i => by
      simp only [List.not_mem_nil, false_iff]; exact fun h => hp (pos_of_inBox h)⟩
    cases hb : a.base with
    | none =>
      refine ⟨w, [], ?_, SameSkel.refl w, hen, rfl⟩
      apply assert_ok
      intro _
      simp [Shape.forEachValueInOrderAssert, optimizeShape_empty, (empty_iff_not_pos hv.nonNeg).2 hp]
    | some q =>
      refine ⟨w, [], ?_, SameSkel.refl w, hen, rfl⟩
      have := forEachValue_perm s hv.nonNeg (q.2 + off)
      rw [boxList_nil hp, List.map_nil, List.perm_nil] at this
      dsimp only
      rw [this]; rfl
  · have hab := hv.sub _ (min_inBox hp)
    obtain ⟨c, blk', hh', _⟩ := (hI.good x a ha).full hab.1
    obtain ⟨tr, htr, hpt⟩ := perm_map_exists (forEachValue_perm s hv.nonNeg (0 - a.shape.flatMin + off))
    have hen := perm_boxList hpt
    have hcd : ∀ i, a.cell s off i = (c, 0 - a.shape.flatMin + off + offsetOf s i) := by
      intro i; unfold Arr.cell; rw [hh'.base]
    rw [hh'.base]
    dsimp only
    rw [htr, List.zipIdx_map, List.foldlM_map]
    obtain ⟨w', e, hk, hc⟩ := loop_cells
      (fun p : Index × Nat => replaceAt c (f p.2) (0 - a.shape.flatMin + off + offsetOf s p.1))
      (fun p m q => if q = a.cell s off p.1 then (m q).map (f p.2) else m q)
      (fun p w => Alive w (a.cell s off p.1)) tr.zipIdx
      (fun i _ w w' hk h => hk.alive h)
      (fun p _ w h => by
        rw [hcd] at h ⊢
        exact update_cells h _)
      w (fun p hp => (hv.sub _ ((hen.2 _).1 (List.fst_mem_of_mem_zipIdx hp))).alive hI ha)
    exact ⟨w', tr, e, hk, hen, hc⟩

theorem transformRef_ok {ty : Types V} {w : World V} {x : Nat} {a : Arr} {s : Shape} {off : Int}
    (f : Index → V) (hI : Inv ty w) (ha : w.vars x = some a) (hv : PartOk a s off) :
    ∃ w' tr, transformRef x s off f w = .ok w' ∧ SameSkel w w' ∧ Enumerates s tr ∧
      w'.cells = tr.foldl (fun m i q => if q = a.cell s off i then (m q).map (fun _ => f i) else m q) w.cells := by
  unfold transformRef
  rw [get_ok ha, bind_ok, forEachIndex_eq hv.nonNeg]
  dsimp only
  have hen := perm_boxList (List.Perm.refl (boxList s))
  by_cases hp : Pos s
  swap
  · rw [boxList_nil hp] at hen ⊢
    exact ⟨w, [], rfl, SameSkel.refl w, hen, rfl⟩
  · have hab := hv.sub _ (min_inBox hp)
    obtain ⟨c, blk', hh', _⟩ := (hI.good x a ha).full hab.1
    have hcd : ∀ i, a.cell s off i = (c, 0 - a.shape.flatMin + off + offsetOf s i) := by
      intro i; unfold Arr.cell; rw [hh'.base]
    rw [hh'.base]
    dsimp only
    obtain ⟨w', e, hk, hc⟩ := loop_cells
      (fun i => assignAt .moveAssign c (0 - a.shape.flatMin + off + s.flatOffset i) (f i))
      (fun i m q => if q = a.cell s off i then (m q).map (fun _ => f i) else m q)
      (fun i w => Alive w (a.cell s off i)) (boxList s)
      (fun i _ w w' hk h => hk.alive h)
      (fun i _ w h => by
        rw [hcd] at h ⊢
        rw [flatOffset_eq]
        obtain ⟨v, _, h2⟩ := h.read
        obtain ⟨w', e, hk, hc⟩ := assign_cells h .moveAssign (f i)
        refine ⟨w', e, hk, ?_⟩
        rw [hc]
        funext q
        by_cases hq : q = (c, 0 - a.shape.flatMin + off + offsetOf s i)
        · rw [if_pos hq, if_pos hq, hq, h2]; rfl
        · rw [if_neg hq, if_neg hq])
      w (fun i hi => (hv.sub _ ((hen.2 _).1 hi)).alive hI ha)
    exact ⟨w', boxList s, e, hk, hen, hc⟩

/-! ### What is not changed -/

theorem cell_ne {ty : Types V} {w : World V} (hI : Inv ty w) {x z : Nat} {a c : Arr} (ha : w.vars x = some a)
    (hc : w.vars z = some c) (hxz : z ≠ x) {b : Nat} (hb : c.buffer = some (b, 0)) (q : Int)
    {s : Shape} {off : Int} {i : Index} (h : Refers a s off i) : a.cell s off i ≠ (b, q) := by
  obtain ⟨d, blk, hh, _⟩ := (hI.good x a ha).full h.1
  unfold Arr.cell
  rw [hh.base]
  intro e
  simp only [Prod.mk.injEq] at e
  obtain ⟨rfl, _⟩ := e
  exact hxz (hI.disj z x c a d 0 0 hc ha hb hh.buffer)

theorem assignRef_step (keep : Bool) {ty : Types V} {w : World V} {y x : Nat} {o a : Arr} {src dst : Shape}
    {soff doff : Int} (hI : Inv ty w) (ho : w.vars y = some o) (ha : w.vars x = some a)
    (hv : PairOk o src soff a dst doff) :
    ∃ w', assignRef keep ty y src soff x dst doff w = .ok w' ∧ Inv ty w' ∧
      Step (fun z => z = x ∨ (keep = false ∧ z = y)) w w' ∧ w'.nextVar = w.nextVar := by
  obtain ⟨w', tr, e, hk, hen, hc⟩ := assignRef_ok keep hI ho ha hv
  refine ⟨w', e, hk.inv hI, hk.step fun z c b q hz hzc hb => ?_, hk.nextVar⟩
  rw [hc]
  apply transfer_frame
  · intro i hi
    exact cell_ne hI ha hzc (fun h => hz (Or.inl h)) hb q (hv.sub i ((hen.2 i).1 hi)).2.2
  · intro hkeep i hi
    exact cell_ne hI ho hzc (fun h => hz (Or.inr ⟨hkeep, h⟩)) hb q (hv.sub i ((hen.2 i).1 hi)).2.1

theorem forEachRef_step {ty : Types V} {w : World V} {x : Nat} {a : Arr} {s : Shape} {off : Int}
    (f : Nat → V → V) (hI : Inv ty w) (ha : w.vars x = some a) (hv : PartOk a s off) :
    ∃ w', forEachRef ty x s off f w = .ok w' ∧ Inv ty w' ∧ Step (fun z => z = x) w w' ∧ w'.nextVar = w.nextVar := by
  obtain ⟨w', tr, e, hk, hen, hc⟩ := forEachRef_ok f hI ha hv
  refine ⟨w', e, hk.inv hI, hk.step fun z c b q hz hzc hb => ?_, hk.nextVar⟩
  rw [hc]
  apply update_frame (fun p : Index × Nat => a.cell s off p.1) (fun p => f p.2)
  intro p hp
  exact cell_ne hI ha hzc hz hb q (hv.sub _ ((hen.2 _).1 (List.fst_mem_of_mem_zipIdx hp)))

theorem transformRef_step {ty : Types V} {w : World V} {x : Nat} {a : Arr} {s : Shape} {off : Int}
    (f : Index → V) (hI : Inv ty w) (ha : w.vars x = some a) (hv : PartOk a s off) :
    ∃ w', transformRef x s off f w = .ok w' ∧ Inv ty w' ∧ Step (fun z => z = x) w w' ∧ w'.nextVar = w.nextVar := by
  obtain ⟨w', tr, e, hk, hen, hc⟩ := transformRef_ok f hI ha hv
  refine ⟨w', e, hk.inv hI, hk.step fun z c b q hz hzc hb => ?_, hk.nextVar⟩
  rw [hc]
  apply update_frame (fun i => a.cell s off i) (fun i _ => f i)
  intro i hi
  exact cell_ne hI ha hzc hz hb q (hv.sub _ ((hen.2 _).1 hi))

end Nda
