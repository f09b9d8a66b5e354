import Verif.Lemmas.CheckedLoops
import Verif.Lemmas.Split
/-
Splits of intervals on bounded integers follow those on unbounded integers.
-/
namespace Nda

open Spec

variable {w : Nat}

/-- The integers held by a split iterator. -/
def WSplitIt.toSplitIt (it : WSplitIt w) : SplitIt := ⟨it.i.toInterval, it.outerMax.toInt⟩

theorem wIvl_max_val {v : WIvl w} (hw : 2 ≤ w) (h : Fit w (v.min.toInt + v.extent.toInt))
    (h' : Fit w (v.min.toInt + v.extent.toInt - 1)) : WVal v.max (v.min.toInt + v.extent.toInt - 1) := by
  obtain ⟨a, ha, va⟩ := wval_add (a := v.min) (b := v.extent) rfl rfl h
  obtain ⟨b, hb, vb⟩ := wval_sub (a := a) (b := 1#w) va (one_toInt hw) h'
  exact ⟨b, by unfold WIvl.max; rw [ha]; exact hb, vb⟩

theorem mul_one_val {a : BitVec w} (hw : 2 ≤ w) : WVal (cmul a 1#w) a.toInt := by
  have := wval_mul (a := a) (b := 1#w) rfl (one_toInt hw) (by rw [mul_one]; exact fit_toInt a)
  rwa [mul_one] at this

/-- One step of an iterator of a static split. -/
theorem wAddStatic_eq (hw : 2 ≤ w) {e : BitVec w} {it : WSplitIt w} (he : 0 < e.toInt)
    (hie : it.i.extent = e) (hin : it.i.min.toInt + e.toInt ≤ it.outerMax.toInt + 1)
    (hfit : it.outerMax.toInt + e.toInt < 2 ^ (w - 1)) :
    ∃ it', it.addStatic e 1#w = some it' ∧ it'.toSplitIt = it.toSplitIt.addStatic e.toInt 1 ∧
      it'.i.extent = e ∧ it'.outerMax = it.outerMax ∧
      (it'.i.min.toInt = it.outerMax.toInt + 1 ∨ it'.i.min.toInt + e.toInt ≤ it.outerMax.toInt + 1) := by
  have f0 := fit_toInt it.i.min
  have fX := fit_toInt it.outerMax
  have fE := fit_toInt e
  unfold Fit at f0 fX fE
  obtain ⟨t, ht, vt⟩ := mul_one_val (a := e) hw
  obtain ⟨m, hm, vm⟩ := wval_add (a := it.i.min) (b := t) rfl vt (by unfold Fit; omega)
  unfold WSplitIt.addStatic
  rw [ht]
  simp only [Option.bind_eq_bind, Option.bind_some, hm]
  have hspec : it.toSplitIt.addStatic e.toInt 1 = (if m.toInt ≤ it.outerMax.toInt ∧
      m.toInt + e.toInt - 1 > it.outerMax.toInt then
        SplitIt.mk ⟨it.outerMax.toInt - e.toInt + 1, e.toInt⟩ it.outerMax.toInt
      else SplitIt.mk ⟨m.toInt, e.toInt⟩ it.outerMax.toInt) := by
    unfold SplitIt.addStatic WSplitIt.toSplitIt WIvl.toInterval Interval.max
    simp only [mul_one, hie, ← vm]
    split <;> rfl
  by_cases h1 : m.toInt ≤ it.outerMax.toInt
  · rw [if_pos (BitVec.sle_iff_toInt_le.2 h1)]
    obtain ⟨mx, hmx, vmx⟩ := wIvl_max_val (v := ⟨m, it.i.extent⟩) hw (by unfold Fit; rw [hie]; dsimp only; omega)
      (by unfold Fit; rw [hie]; dsimp only; omega)
    rw [hie] at vmx
    dsimp only at vmx
    rw [hmx]
    simp only [Option.bind_some]
    by_cases h2 : it.outerMax.toInt < mx.toInt
    · rw [if_pos (BitVec.slt_iff_toInt_lt.2 h2)]
      obtain ⟨a, ha, va⟩ := wval_sub (a := it.outerMax) (b := e) rfl rfl (by unfold Fit; omega)
      obtain ⟨b, hb, vb⟩ := wval_add (a := a) (b := 1#w) va (one_toInt hw) (by unfold Fit; omega)
      rw [ha]
      simp only [Option.bind_some, hb]
      refine ⟨_, rfl, ?_, hie, rfl, ?_⟩
      · rw [hspec, if_pos (by omega)]
        unfold WSplitIt.toSplitIt WIvl.toInterval
        simp only [vb, hie]
      · right; dsimp only; omega
    · rw [if_neg (fun hc => h2 (BitVec.slt_iff_toInt_lt.1 hc))]
      refine ⟨_, rfl, ?_, hie, rfl, ?_⟩
      · rw [hspec, if_neg (by omega)]
        unfold WSplitIt.toSplitIt WIvl.toInterval
        simp only [hie]
      · right; dsimp only; omega
  · rw [if_neg (fun hc => h1 (BitVec.sle_iff_toInt_le.1 hc))]
    refine ⟨_, rfl, ?_, hie, rfl, ?_⟩
    · rw [hspec, if_neg (by omega)]
      unfold WSplitIt.toSplitIt WIvl.toInterval
      simp only [hie]
    · left; dsimp only; omega

/-- One step of an iterator of a dynamic split. -/
theorem wAddDynamic_eq (hw : 2 ≤ w) {it : WSplitIt w} {n : Int} (he : 0 < it.i.extent.toInt)
    (hen : it.i.extent.toInt ≤ n)
    (hin : it.i.min.toInt + it.i.extent.toInt ≤ it.outerMax.toInt + 1)
    (hfit : it.outerMax.toInt + 1 + n < 2 ^ (w - 1)) :
    ∃ it', it.addDynamic 1#w = some it' ∧ it'.toSplitIt = it.toSplitIt.addDynamic 1 ∧
      it'.outerMax = it.outerMax ∧ it'.i.extent.toInt ≤ n ∧
      (it'.i.min.toInt = it.outerMax.toInt + 1 ∨
        0 < it'.i.extent.toInt ∧ it'.i.min.toInt + it'.i.extent.toInt ≤ it.outerMax.toInt + 1) := by
  have f0 := fit_toInt it.i.min
  have fX := fit_toInt it.outerMax
  have fE := fit_toInt it.i.extent
  unfold Fit at f0 fX fE
  obtain ⟨t, ht, vt⟩ := mul_one_val (a := it.i.extent) hw
  obtain ⟨m, hm, vm⟩ := wval_add (a := it.i.min) (b := t) rfl vt (by unfold Fit; omega)
  obtain ⟨imx, hmx, vmx⟩ := wIvl_max_val (v := ⟨m, it.i.extent⟩) hw (by unfold Fit; dsimp only; omega)
      (by unfold Fit; dsimp only; omega)
  dsimp only at vmx
  have vmin : (if imx.slt it.outerMax then imx else it.outerMax).toInt = min imx.toInt it.outerMax.toInt := by
    split
    · rename_i h; rw [BitVec.slt_iff_toInt_lt] at h; omega
    · rename_i h; rw [BitVec.slt_iff_toInt_lt] at h; omega
  obtain ⟨u, hu, vu⟩ := wval_sub (b := m) vmin rfl (by unfold Fit; omega)
  obtain ⟨e, he', ve⟩ := wval_add (a := u) (b := 1#w) vu (one_toInt hw) (by unfold Fit; omega)
  refine ⟨⟨⟨m, e⟩, it.outerMax⟩, ?_, ?_, rfl, ?_, ?_⟩
  · unfold WSplitIt.addDynamic
    rw [ht]
    simp only [Option.bind_eq_bind, Option.bind_some, hm, hmx, hu, he']
  · unfold WSplitIt.toSplitIt WIvl.toInterval SplitIt.addDynamic Interval.max
    simp only [imin_eq, mul_one, ve, vmx, vm]
  · dsimp only; omega
  · dsimp only; omega

/-- Loops that start alike and step alike. -/
theorem wLoop_sim {r : WSplit w} {R : SplitResult} (Inv : WSplitIt w → Prop)
    (hend : r.end_.i.min.toInt = R.end_.i.min)
    (hstep : ∀ it, Inv it → it.i.min.toInt ≠ R.end_.i.min →
      ∃ it', r.add it 1#w = some it' ∧ it'.toSplitIt = R.add it.toSplitIt 1 ∧ Inv it') :
    ∀ (l : List Interval) (it : WSplitIt w), Inv it → R.loop it.toSplitIt = some l →
      ∃ l', r.loop it = some l' ∧ l'.map WIvl.toInterval = l := by
  intro l
  induction l with
  | nil =>
    intro it _ h
    rw [SplitResult.loop] at h
    have he : it.toSplitIt.eq R.end_ = true := by
      by_contra hc
      rw [if_neg hc] at h
      simp [Option.bind_eq_some_iff] at h
    refine ⟨[], ?_, rfl⟩
    rw [WSplit.loop, if_pos]
    unfold SplitIt.eq at he
    rw [beq_iff_eq] at he ⊢
    apply BitVec.eq_of_toInt_eq
    rw [hend, ← he]; rfl
  | cons i l ih =>
    intro it hI h
    rw [SplitResult.loop] at h
    by_cases hc : it.toSplitIt.eq R.end_ = true
    · rw [if_pos hc] at h; simp at h
    · rw [if_neg hc] at h
      simp only [Option.bind_eq_bind, Option.bind_eq_some_iff] at h
      obtain ⟨rest, h1, h2⟩ := h
      simp only [Option.pure_def, Option.some.injEq, List.cons.injEq] at h2
      obtain ⟨h2, rfl⟩ := h2
      have hne : it.i.min.toInt ≠ R.end_.i.min := by
        intro hc2
        apply hc
        unfold SplitIt.eq
        rw [beq_iff_eq]
        exact hc2
      obtain ⟨it', e1, e2, hI'⟩ := hstep it hI hne
      rw [← e2] at h1
      obtain ⟨l', e3, e4⟩ := ih it' hI' h1
      refine ⟨it.i :: l', ?_, by rw [List.map_cons, e4, ← h2]; rfl⟩
      rw [WSplit.loop, if_neg, e1]
      · simp [e3]
      · rw [beq_iff_eq]
        intro hc2
        apply hne
        rw [hc2, hend]

theorem cdiv_val (hw : 2 ≤ w) {a b : BitVec w} {m n : Int} (ha : a.toInt = m) (hb : b.toInt = n) (hm : 0 ≤ m)
    (hn : 0 < n) : WVal (cdiv a b) (Int.tdiv m n) := by
  subst ha hb
  refine ⟨_, cdiv_some ?_⟩
  rintro (rfl | ⟨rfl, _⟩)
  · simp at hn
  · rw [BitVec.toInt_intMin_of_pos (by omega)] at hm
    have : (0 : Int) < 2 ^ (w - 1) := by positivity
    omega

end Nda
