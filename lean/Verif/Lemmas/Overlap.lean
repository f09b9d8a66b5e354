import Verif.Lemmas.ArrayViews
import Verif.Props.Order
import Verif.Spec.Overlap
/-
Lemmas about loops of assignments in which sources can be destinations.
-/
namespace Nda
open Spec

/-! ### Lists of assignments -/

section
variable {P V : Type} (ty : Types V) (s d : P → Nat × Int)

theorem ordered_copy (tr : List P) (m : Nat × Int → Option V) (hd : tr.Pairwise fun p q => d p ≠ d q)
    (hr : tr.Pairwise fun p q => d p = s q → s p = s q) (p : P) (hp : p ∈ tr) :
    tr.foldl (fun m p => transferCell true ty (s p) (d p) m) m (d p) = m (s p) := by
  induction tr generalizing m with
  | nil => simp at hp
  | cons q tr ih =>
    rw [List.pairwise_cons] at hd hr
    rw [List.foldl_cons]
    rcases List.mem_cons.1 hp with rfl | hp
    · rw [transfer_frame true ty s d tr _ _ (fun r hr => (hd.1 r hr).symm) (fun h => by simp at h)]
      unfold transferCell; rw [if_pos rfl]
    · rw [ih _ hd.2 hr.2 hp]
      unfold transferCell
      split
      · next e => rw [hr.1 p hp e.symm]
      · rw [if_neg (by simp)]

theorem ordered_move (tr : List P) (m : Nat × Int → Option V) (hd : tr.Pairwise fun p q => d p ≠ d q)
    (hr : tr.Pairwise fun p q => d p ≠ s q) (hs : tr.Pairwise fun p q => s p ≠ s q) (p : P) (hp : p ∈ tr) :
    tr.foldl (fun m p => transferCell false ty (s p) (d p) m) m (d p) = m (s p) := by
  induction tr generalizing m with
  | nil => simp at hp
  | cons q tr ih =>
    rw [List.pairwise_cons] at hd hr hs
    rw [List.foldl_cons]
    rcases List.mem_cons.1 hp with rfl | hp
    · rw [transfer_frame false ty s d tr _ _ (fun r hr => (hd.1 r hr).symm) (fun _ r h => (hr.1 r h).symm)]
      unfold transferCell; rw [if_pos rfl]
    · rw [ih _ hd.2 hr.2 hs.2 hp]
      unfold transferCell
      rw [if_neg (hr.1 p hp).symm, if_neg fun h => hs.1 p hp h.2.symm]

end

/-! ### One memory -/

section
variable {α P : Type} (s d : P → Int)

theorem set_frame (l : List P) (m : Mem α) (a : Int) (h : ∀ p ∈ l, d p ≠ a) :
    l.foldl (fun m p => copyAssign id m (s p, d p)) m a = m a := by
  induction l generalizing m with
  | nil => rfl
  | cons q l ih =>
    rw [List.foldl_cons, ih _ fun p hp => h p (by simp [hp])]
    unfold copyAssign Mem.set
    exact if_neg fun e => h q (by simp) e.symm

theorem ordered_set (l : List P) (m : Mem α) (hd : l.Pairwise fun p q => d p ≠ d q)
    (hr : l.Pairwise fun p q => d p = s q → s p = s q) (p : P) (hp : p ∈ l) :
    l.foldl (fun m p => copyAssign id m (s p, d p)) m (d p) = m (s p) := by
  induction l generalizing m with
  | nil => simp at hp
  | cons q l ih =>
    rw [List.pairwise_cons] at hd hr
    rw [List.foldl_cons]
    rcases List.mem_cons.1 hp with rfl | hp
    · rw [set_frame s d l _ _ fun r hr => (hd.1 r hr).symm]
      simp [copyAssign, Mem.set]
    · rw [ih _ hd.2 hr.2 hp]
      unfold copyAssign Mem.set
      dsimp only [id]
      split
      · next e => rw [hr.1 p hp e.symm]
      · rfl

/-- If a source has been a destination before, then the loop cannot be right for all contents of the memory. -/
theorem spoiled_set (l1 l2 l3 : List P) (p q : P)
    (hd : (l1 ++ p :: (l2 ++ q :: l3)).Pairwise fun p q => d p ≠ d q) (e : d p = s q)
    (h : ∀ (m : Mem Int), ∀ r ∈ l1 ++ p :: (l2 ++ q :: l3),
      (l1 ++ p :: (l2 ++ q :: l3)).foldl (fun m p => copyAssign id m (s p, d p)) m (d r) = m (s r)) :
    s p = s q := by
  rw [List.pairwise_append, List.pairwise_cons, List.pairwise_append, List.pairwise_cons] at hd
  obtain ⟨-, ⟨hp, -, ⟨hq, -⟩, hlq⟩, -⟩ := hd
  have h1 : ∀ m : Mem Int, m (s p) = m (s q) := by
    intro m
    have hp' := h m p (by simp)
    have hq' := h m q (by simp)
    rw [List.foldl_append, List.foldl_cons, List.foldl_append, List.foldl_cons] at hp' hq'
    generalize l1.foldl (fun m p => copyAssign id m (s p, d p)) m = m1 at hp' hq'
    rw [set_frame s d l3 _ _ fun r hr => (hp r (by simp [hr])).symm] at hp'
    rw [set_frame s d l3 _ _ fun r hr => (hq r hr).symm] at hq'
    have e1 := set_frame s d l2 (copyAssign id m1 (s p, d p)) (d p) fun r hr => (hp r (by simp [hr])).symm
    rw [← hp', ← hq']
    generalize l2.foldl (fun m p => copyAssign id m (s p, d p)) (copyAssign id m1 (s p, d p)) = m2 at e1
    have hpq : d p ≠ d q := hp q (by simp)
    simp [copyAssign, Mem.set, hpq, e]
  have := h1 (fun x => if x = s p then 1 else 0)
  by_contra hne
  simp [Ne.symm hne] at this

end

/-! ### The order of copies -/

theorem pairwise_of_mem {A : Type} {R S : A → A → Prop} {l : List A} (h : l.Pairwise R)
    (hi : ∀ i ∈ l, ∀ j ∈ l, R i j → S i j) : l.Pairwise S := by
  induction l with
  | nil => exact List.Pairwise.nil
  | cons a l ih =>
    rw [List.pairwise_cons] at h ⊢
    exact ⟨fun j hj => hi a (by simp) j (by simp [hj]) (h.1 j hj),
      ih h.2 fun i hi' j hj => hi i (by simp [hi']) j (by simp [hj])⟩

/-- The indices in the order in which a copy visits them. -/
theorem copy_order {src dst : Shape} (hl : List.length src = List.length dst) (hp : Pos dst) (a b : Int) :
    ∃ tr, Enumerates dst tr ∧
      copyForEachValue src (some a) dst (some b) = tr.map (fun i => (a + offsetOf src i, b + offsetOf dst i)) ∧
      (Stackable dst → tr.Pairwise fun i j => offsetOf dst i < offsetOf dst j) := by
  have hperm := copyForEachValue_perm hl (fun d h => (hp d h).le) a b
  obtain ⟨tr, htr, hpt⟩ := perm_map_exists hperm
  refine ⟨tr, perm_boxList hpt, htr, fun hs => ?_⟩
  have := (C61_copy src dst a b hl hp).2 hs
  rw [htr, List.map_map, List.pairwise_map] at this
  exact this.imp fun h => by simpa using h

section
variable {V : Type}

theorem assignRef_ordered (keep : Bool) {ty : Types V} {w : World V} {y x : Nat} {o a : Arr} {src dst : Shape}
    {soff doff : Int} (hI : Inv ty w) (ho : w.vars y = some o) (ha : w.vars x = some a)
    (hv : PairOk o src soff a dst doff) :
    ∃ w' tr, assignRef keep ty y src soff x dst doff w = .ok w' ∧ SameSkel w w' ∧ Enumerates dst tr ∧
      (Stackable dst → tr.Pairwise fun i j => offsetOf dst i < offsetOf dst j) ∧
      w'.cells = tr.foldl (fun m i => transferCell keep ty (o.cell src soff i) (a.cell dst doff i) m) w.cells := by
  unfold assignRef
  rw [get_ok ho, bind_ok, get_ok ha, bind_ok]
  unfold assignElements
  have hempty := empty_iff_not_pos hv.nonNegDst
  by_cases hp : Pos dst
  swap
  · rw [if_pos (hempty.2 hp)]
    refine ⟨w, [], rfl, SameSkel.refl w, ⟨List.nodup_nil, fun i => ?_⟩, fun _ => List.Pairwise.nil, rfl⟩
    simp only [List.not_mem_nil, false_iff]
    exact fun h => hp (pos_of_inBox h)
  · rw [if_neg fun h => hempty.1 h hp]
    rw [assert_ok (fun _ => (C16_assert_iff src dst hv.rank hp).2 fun i hi => (hv.sub i hi).1), bind_ok]
    obtain ⟨_, hob, hab⟩ := hv.sub _ (min_inBox hp)
    obtain ⟨b, blk, hh, _⟩ := (hI.good y o ho).full hob.1
    obtain ⟨c, blk', hh', _⟩ := (hI.good x a ha).full hab.1
    obtain ⟨tr, hen, htr, hord⟩ := copy_order hv.rank hp (0 - o.shape.flatMin + soff) (0 - a.shape.flatMin + doff)
    unfold forEachPair
    rw [hh.base, hh'.base]
    dsimp only [Option.map_some]
    rw [htr, List.foldlM_map]
    have hcs : ∀ i, o.cell src soff i = (b, 0 - o.shape.flatMin + soff + offsetOf src i) := by
      intro i; unfold Arr.cell; rw [hh.base]
    have hcd : ∀ i, a.cell dst doff i = (c, 0 - a.shape.flatMin + doff + offsetOf dst i) := by
      intro i; unfold Arr.cell; rw [hh'.base]
    obtain ⟨w', e, hk, hc⟩ := loop_cells
      (fun i => (if keep then copyAssignAt else moveAssignAt ty) b c
        (0 - o.shape.flatMin + soff + offsetOf src i, 0 - a.shape.flatMin + doff + offsetOf dst i))
      (fun i m => transferCell keep ty (o.cell src soff i) (a.cell dst doff i) m)
      (fun i w => Alive w (o.cell src soff i) ∧ Alive w (a.cell dst doff i)) tr
      (fun i _ w w' hk h => ⟨hk.alive h.1, hk.alive h.2⟩)
      (fun i _ w h => by
        rw [hcs, hcd] at h ⊢
        exact transfer_cells keep h.1 h.2)
      w (fun i hi => ⟨(hv.sub i ((hen.2 i).1 hi)).2.1.alive hI ho, (hv.sub i ((hen.2 i).1 hi)).2.2.alive hI ha⟩)
    exact ⟨w', tr, e, hk, hen, hord, hc⟩

end

/-! ### Strides -/

/-- Larger strides in the source. -/
theorem offset_le_of_strides {src dst : Shape}
    (h : List.Forall₂ (fun c d => c.min = d.min ∧ d.stride ≤ c.stride) src dst) {i : Index} (hi : InBox dst i) :
    offsetOf dst i ≤ offsetOf src i := by
  induction h generalizing i with
  | nil => cases i <;> simp [offsetOf]
  | @cons c d src dst hcd _ ih =>
    obtain ⟨x, i, rfl, hx, hi⟩ := inBox_cons_iff.1 hi
    have := ih hi
    simp only [offsetOf]
    rw [hcd.1]
    have : (x - d.min) * d.stride ≤ (x - d.min) * c.stride := mul_le_mul_of_nonneg_left hcd.2 (by omega)
    omega

end Nda
