import Verif.Lemmas.Values
import Verif.Lemmas.Flat
import Verif.Model.Algorithms

namespace Nda
open Spec
variable {α : Type}

theorem Mem.set_same (m : Mem α) (a : Int) (v : α) : m.set a v a = v := by simp [Mem.set]
theorem Mem.set_other (m : Mem α) {a x : Int} (v : α) (h : x ≠ a) : m.set a v x = m x := by
  simp [Mem.set, h]

theorem foldl_copy_untouched (conv : α → α) (tr : List (Int × Int)) (m : Mem α) (x : Int)
    (h : ∀ p ∈ tr, p.2 ≠ x) : tr.foldl (copyAssign conv) m x = m x := by
  induction tr generalizing m with
  | nil => rfl
  | cons p tr ih =>
    rw [List.foldl_cons, ih _ (fun q hq => h q (by simp [hq]))]
    exact Mem.set_other _ _ (fun e => h p (by simp) e.symm)

theorem foldl_copy_touched (conv : α → α) (tr : List (Int × Int)) (m : Mem α)
    (hd : ∀ p ∈ tr, ∀ q ∈ tr, p.1 ≠ q.2) (x : Int) (h : ∃ p ∈ tr, p.2 = x) :
    ∃ p ∈ tr, p.2 = x ∧ tr.foldl (copyAssign conv) m x = conv (m p.1) := by
  induction tr generalizing m with
  | nil => obtain ⟨p, hp, _⟩ := h; simp at hp
  | cons p tr ih =>
    rw [List.foldl_cons]
    by_cases h' : ∃ q ∈ tr, q.2 = x
    · obtain ⟨q, hq, hqx, he⟩ := ih (copyAssign conv m p)
        (fun a ha b hb => hd a (by simp [ha]) b (by simp [hb])) h'
      refine ⟨q, by simp [hq], hqx, ?_⟩
      rw [he]
      congr 1
      exact Mem.set_other _ _ (hd q (by simp [hq]) p (by simp))
    · have hx : p.2 = x := by
        obtain ⟨q, hq, hqx⟩ := h
        rcases List.mem_cons.1 hq with rfl | hq
        · exact hqx
        · exact absurd ⟨q, hq, hqx⟩ h'
      refine ⟨p, by simp, hx, ?_⟩
      rw [foldl_copy_untouched _ _ _ _ (fun q hq e => h' ⟨q, hq, e⟩), ← hx]
      exact Mem.set_same _ _ _

theorem foldl_move_spec (conv moved : α → α) (tr : List (Int × Int)) (m : Mem α)
    (hd : ∀ p ∈ tr, ∀ q ∈ tr, p.1 ≠ q.2) (h1 : (tr.map Prod.fst).Nodup)
    (h2 : (tr.map Prod.snd).Nodup) :
    (∀ p ∈ tr, tr.foldl (moveAssign conv moved) m p.2 = conv (m p.1) ∧
      tr.foldl (moveAssign conv moved) m p.1 = moved (m p.1)) ∧
    ∀ x, (∀ p ∈ tr, p.1 ≠ x ∧ p.2 ≠ x) → tr.foldl (moveAssign conv moved) m x = m x := by
  induction tr generalizing m with
  | nil => exact ⟨by simp, by simp⟩
  | cons p tr ih =>
    rw [List.map_cons, List.nodup_cons] at h1 h2
    obtain ⟨i1, i2⟩ := ih (moveAssign conv moved m p)
      (fun a ha b hb => hd a (by simp [ha]) b (by simp [hb])) h1.2 h2.2
    have hpp := hd p (by simp) p (by simp)
    have hm : ∀ x, x ≠ p.1 → x ≠ p.2 → moveAssign conv moved m p x = m x := by
      intro x hx1 hx2
      unfold moveAssign
      rw [Mem.set_other _ _ hx2, Mem.set_other _ _ hx1]
    have hp2 : moveAssign conv moved m p p.2 = conv (m p.1) := Mem.set_same _ _ _
    have hp1 : moveAssign conv moved m p p.1 = moved (m p.1) := by
      unfold moveAssign
      rw [Mem.set_other _ _ hpp, Mem.set_same]
    have hne : ∀ q ∈ tr, q.1 ≠ p.1 ∧ q.2 ≠ p.2 := fun q hq =>
      ⟨fun e => h1.1 (List.mem_map.2 ⟨q, hq, e⟩), fun e => h2.1 (List.mem_map.2 ⟨q, hq, e⟩)⟩
    refine ⟨?_, ?_⟩
    · intro q hq
      rw [List.foldl_cons]
      rcases List.mem_cons.1 hq with rfl | hq
      · rw [i2 q.2 (fun r hr => ⟨hd r (by simp [hr]) q (by simp), (hne r hr).2⟩),
          i2 q.1 (fun r hr => ⟨(hne r hr).1, fun e => hd q (by simp) r (by simp [hr]) e.symm⟩)]
        exact ⟨hp2, hp1⟩
      · obtain ⟨e1, e2⟩ := i1 q hq
        rw [e1, e2, hm q.1 (hne q hq).1 (hd q (by simp [hq]) p (by simp))]
        exact ⟨rfl, rfl⟩
    · intro x hx
      rw [List.foldl_cons, i2 x (fun r hr => hx r (by simp [hr]))]
      exact hm x (fun e => (hx p (by simp)).1 e.symm) (fun e => (hx p (by simp)).2 e.symm)

theorem foldl_set_const (tr : List Int) (v : α) (m : Mem α) (x : Int) :
    tr.foldl (fun m a => m.set a v) m x = if x ∈ tr then v else m x := by
  induction tr generalizing m with
  | nil => simp
  | cons a tr ih =>
    rw [List.foldl_cons, ih]
    by_cases hx : x ∈ tr
    · simp [hx]
    · by_cases ha : x = a
      · subst ha; simp [Mem.set_same]
      · simp [hx, ha, Mem.set_other]

theorem foldl_all {β : Type} (f : β → Bool) (l : List β) (r : Bool) :
    l.foldl (fun result p => if f p then false else result) r = true ↔
      r = true ∧ ∀ p ∈ l, f p = false := by
  induction l generalizing r with
  | nil => simp
  | cons p l ih =>
    rw [List.foldl_cons, ih]
    cases hp : f p <;> simp [hp]

theorem foldl_any {β : Type} (f : β → Bool) (l : List β) (r : Bool) :
    l.foldl (fun result p => if f p then true else result) r = true ↔
      r = true ∨ ∃ p ∈ l, f p = true := by
  induction l generalizing r with
  | nil => simp
  | cons p l ih =>
    rw [List.foldl_cons, ih]
    cases hp : f p <;> simp [hp]

/-- Members of the trace of a copy. -/
theorem mem_copyForEachValue {src dst : Shape} (hl : List.length src = dst.length)
    (h : NonNeg dst) (a b : Int) (p : Int × Int) :
    p ∈ copyForEachValue src (some a) dst (some b) ↔
      ∃ i, InBox dst i ∧ p = (a + offsetOf src i, b + offsetOf dst i) := by
  rw [(copyForEachValue_perm hl h a b).mem_iff, List.mem_map]
  simp only [mem_boxList]
  exact ⟨fun ⟨i, hi, e⟩ => ⟨i, hi, e.symm⟩, fun ⟨i, hi, e⟩ => ⟨i, hi, e.symm⟩⟩

theorem empty_iff_not_pos {s : Shape} (h : NonNeg s) : s.empty = true ↔ ¬ Pos s := by
  rw [← size_pos_iff h]
  unfold Shape.empty
  simp

theorem copyTrace_perm {src dst : ArrayRef} {sb db : Int} (hs : src.base = some sb)
    (hd : dst.base = some db) (hl : List.length src.shape = dst.shape.length)
    (h : NonNeg dst.shape) :
    (copyTrace src dst).Perm ((boxList dst.shape).map fun i =>
      (sb + offsetOf src.shape i, db + offsetOf dst.shape i)) := by
  unfold copyTrace
  split
  · rename_i he
    have : ¬ Pos dst.shape := (empty_iff_not_pos h).1 he
    have hn : boxList dst.shape = [] := by
      rw [List.eq_nil_iff_forall_not_mem]
      intro i hi
      exact this (pos_of_inBox (mem_boxList.1 hi))
    rw [hn]; exact List.Perm.refl _
  · rw [hs, hd]; exact copyForEachValue_perm hl h sb db

theorem mem_copyTrace {src dst : ArrayRef} {sb db : Int} (hs : src.base = some sb)
    (hd : dst.base = some db) (hl : List.length src.shape = dst.shape.length)
    (h : NonNeg dst.shape) (p : Int × Int) :
    p ∈ copyTrace src dst ↔
      ∃ i, InBox dst.shape i ∧ p = (sb + offsetOf src.shape i, db + offsetOf dst.shape i) := by
  rw [(copyTrace_perm hs hd hl h).mem_iff, List.mem_map]
  simp only [mem_boxList]
  exact ⟨fun ⟨i, hi, e⟩ => ⟨i, hi, e.symm⟩, fun ⟨i, hi, e⟩ => ⟨i, hi, e.symm⟩⟩

end Nda
