import Verif.Lemmas.CheckedLoops
import Verif.Lemmas.ZOrder
/-
Z-order traversals on bounded integers follow those on unbounded integers.
-/
namespace Nda

open Spec

variable {w : Nat}

theorem two_toInt (hw : 3 ≤ w) : (2#w).toInt = 2 := by
  obtain ⟨k, rfl⟩ := Nat.exists_eq_add_of_le hw
  rw [show (2#(3 + k)).toInt = ((2 : Nat) : Int).bmod (2 ^ (3 + k)) from BitVec.toInt_ofNat' ..]
  have h : (2 : Int) ^ (3 + k) = 8 * 2 ^ k := by rw [pow_add]; norm_num
  have hp : (1 : Int) ≤ 2 ^ k := one_le_pow₀ (by norm_num)
  rw [show ((2 : Nat) : Int) = 2 from rfl, Int.bmod_def]
  push_cast
  rw [h]
  rw [Int.emod_eq_of_lt (by norm_num) (by omega)]
  rw [if_pos (by omega)]

theorem pow_w {w : Nat} (hw : 3 ≤ w) : (2 : Int) ^ (w - 1) = 2 * 2 ^ (w - 2) ∧ (2 : Int) ^ (w - 2) = 2 * 2 ^ (w - 3) := by
  constructor
  · rw [show w - 1 = (w - 2) + 1 by omega, pow_succ]; ring
  · rw [show w - 2 = (w - 3) + 1 by omega, pow_succ]; ring

theorem wNextPowerOfTwoLoop_eq (hw : 3 ≤ w) {x : BitVec w} (hx : x.toInt ≤ 2 ^ (w - 2)) :
    ∀ (f j : Nat) (r : BitVec w), j + f = w - 2 → r.toInt = 2 ^ j →
      ∃ p k, wNextPowerOfTwoLoop x r = some p ∧ nextPowerOfTwoLoop x.toInt (2 ^ j) = some p.toInt ∧
        k ≤ w - 2 ∧ p.toInt = 2 ^ k := by
  intro f
  induction f with
  | zero =>
    intro j r hj hr
    obtain rfl : j = w - 2 := by omega
    refine ⟨r, w - 2, ?_, ?_, le_rfl, hr⟩
    · rw [wNextPowerOfTwoLoop, if_neg]
      rw [BitVec.slt_iff_toInt_lt]; omega
    · rw [nextPowerOfTwoLoop, if_neg (by omega), hr]
  | succ f ih =>
    intro j r hj hr
    rw [wNextPowerOfTwoLoop, nextPowerOfTwoLoop]
    by_cases h : r.toInt < x.toInt
    · rw [if_pos (BitVec.slt_iff_toInt_lt.2 h), if_pos (by omega)]
      have hp : (0 : Int) < 2 ^ j := by positivity
      obtain ⟨e1, e2⟩ := pow_w hw
      obtain ⟨q, hq, vq⟩ := wval_mul (a := r) (b := 2#w) hr (two_toInt hw) (by unfold Fit; omega)
      rw [hq]
      simp only [Option.bind_eq_bind, Option.bind_some]
      have := ih (j + 1) q (by omega) (by rw [vq, pow_succ])
      rw [pow_succ] at this
      exact this
    · rw [if_neg (fun hc => h (BitVec.slt_iff_toInt_lt.1 hc)), if_neg (by omega)]
      exact ⟨r, j, rfl, by rw [hr], by omega, hr⟩

theorem wNextPowerOfTwoLoop_none (hw : 3 ≤ w) {x : BitVec w} (hx : 2 ^ (w - 2) < x.toInt) :
    ∀ (f j : Nat) (r : BitVec w), j + f = w - 2 → r.toInt = 2 ^ j → wNextPowerOfTwoLoop x r = none := by
  obtain ⟨e1, e2⟩ := pow_w hw
  intro f
  induction f with
  | zero =>
    intro j r hj hr
    obtain rfl : j = w - 2 := by omega
    rw [wNextPowerOfTwoLoop, if_pos (by rw [BitVec.slt_iff_toInt_lt]; omega)]
    have : cmul r 2#w = none := by
      unfold cmul
      rw [if_pos]
      unfold BitVec.smulOverflow
      rw [two_toInt hw, hr]
      simp only [Bool.or_eq_true, decide_eq_true_eq]
      left; omega
    rw [this]; rfl
  | succ f ih =>
    intro j r hj hr
    have hlt : (2 : Int) ^ j ≤ 2 ^ (w - 2) := pow_le_pow_right₀ (by norm_num) (by omega)
    have hlt' : (2 : Int) ^ (j + 1) ≤ 2 ^ (w - 2) := pow_le_pow_right₀ (by norm_num) (by omega)
    have hp : (0 : Int) < 2 ^ j := by positivity
    rw [pow_succ] at hlt'
    rw [wNextPowerOfTwoLoop, if_pos (by rw [BitVec.slt_iff_toInt_lt]; omega)]
    obtain ⟨q, hq, vq⟩ := wval_mul (a := r) (b := 2#w) hr (two_toInt hw) (by unfold Fit; omega)
    rw [hq]
    simp only [Option.bind_eq_bind, Option.bind_some]
    exact ih (j + 1) q (by omega) (by rw [vq, pow_succ])

/-- The integers held by an array of indices. -/
def wInts {n : Nat} (z : Fin n → BitVec w) : Fin n → Int := fun d => (z d).toInt

theorem wInts_update {n : Nat} (z : Fin n → BitVec w) (d : Fin n) (t : BitVec w) :
    wInts (Function.update z d t) = Function.update (wInts z) d t.toInt := by
  funext i
  unfold wInts
  by_cases h : i = d
  · subst h; simp
  · simp [Function.update_of_ne h]

/-- The bounded traversal is the image of the unbounded one. -/
def ZSame {n : Nat} (a : Option (List (Fin n → BitVec w))) (b : Option (List (Fin n → Int))) : Prop :=
  ∃ l, a = some l ∧ b = some (l.map wInts)

/-- Two calls for the halves in dimension `dim`. -/
theorem zSame_step {n : Nat} {end_ z : Fin (n + 1) → BitVec w} {dim : Fin (n + 1)} {step : BitVec w}
    {rec : (Fin (n + 1) → BitVec w) → Option (List (Fin (n + 1) → BitVec w))}
    {recI : (Fin (n + 1) → Int) → Option (List (Fin (n + 1) → Int))}
    (hfit : Fit w ((z dim).toInt + step.toInt))
    (ha : ZSame (rec z) (recI (wInts z)))
    (hb : ∀ t : BitVec w, t.toInt = (z dim).toInt + step.toInt → t.toInt < (end_ dim).toInt →
      ZSame (rec (Function.update z dim t)) (recI (wInts (Function.update z dim t)))) :
    ZSame (rec z >>= fun a => cadd (z dim) step >>= fun t =>
        if ((Function.update z dim t) dim).slt (end_ dim) then
          rec (Function.update z dim t) >>= fun b => some (a ++ b)
        else some a)
      (recI (wInts z) >>= fun a =>
        if Function.update (wInts z) dim ((wInts z) dim + step.toInt) dim < wInts end_ dim then
          recI (Function.update (wInts z) dim ((wInts z) dim + step.toInt)) >>= fun b => pure (a ++ b)
        else pure a) := by
  obtain ⟨la, a1, a2⟩ := ha
  obtain ⟨t, ht, vt⟩ := wval_add (a := z dim) (b := step) rfl rfl hfit
  rw [a1, a2, ht]
  simp only [Option.bind_eq_bind, Option.bind_some, Function.update_self]
  have e : (wInts z) dim + step.toInt = t.toInt := by rw [vt]; rfl
  rw [e]
  by_cases h : t.toInt < (end_ dim).toInt
  · rw [if_pos (BitVec.slt_iff_toInt_lt.2 h), if_pos (show t.toInt < wInts end_ dim from h)]
    obtain ⟨lb, b1, b2⟩ := hb t vt h
    rw [wInts_update] at b2
    rw [b1, b2]
    exact ⟨la ++ lb, rfl, by simp⟩
  · rw [if_neg (fun hc => h (BitVec.slt_iff_toInt_lt.1 hc)), if_neg (show ¬ t.toInt < wInts end_ dim from h)]
    exact ⟨la, rfl, rfl⟩

theorem zBound_update {n : Nat} {z end_ : Fin (n + 1) → BitVec w} {B : Int} (hz : ∀ d, 0 ≤ (z d).toInt ∧ (z d).toInt ≤ B)
    (he : ∀ d, (end_ d).toInt ≤ B) {dim : Fin (n + 1)} {t : BitVec w} (h0 : 0 ≤ t.toInt) (ht : t.toInt < (end_ dim).toInt) :
    ∀ d, 0 ≤ (Function.update z dim t d).toInt ∧ (Function.update z dim t d).toInt ≤ B := by
  intro d
  by_cases h : d = dim
  · subst h
    rw [Function.update_self]
    have := he d
    omega
  · rw [Function.update_of_ne h]; exact hz d

theorem wZOrderImpl_dims (hw : 3 ≤ w) {n : Nat} (end_ : Fin (n + 1) → BitVec w)
    (he : ∀ d, (end_ d).toInt ≤ 2 ^ (w - 2)) (k : Nat) (hk : k ≤ w - 3) (step : BitVec w) (hstep : step.toInt = 2 ^ k)
    (h0 : ∀ z : Fin (n + 1) → BitVec w, (∀ d, 0 ≤ (z d).toInt ∧ (z d).toInt ≤ 2 ^ (w - 2)) →
      ZSame (wZOrderImpl end_ z 0 step) (zOrderImpl (wInts end_) (wInts z) 0 (2 ^ k))) (dim : Fin (n + 1)) :
    ∀ z : Fin (n + 1) → BitVec w, (∀ d, 0 ≤ (z d).toInt ∧ (z d).toInt ≤ 2 ^ (w - 2)) →
      ZSame (wZOrderImpl end_ z dim step) (zOrderImpl (wInts end_) (wInts z) dim (2 ^ k)) := by
  induction dim using Fin.induction with
  | zero => exact h0
  | succ i ih =>
    intro z hz
    have hne : i.succ ≠ 0 := Fin.succ_ne_zero i
    have hpred : i.succ - 1 = i.castSucc := by
      ext
      rw [Fin.val_sub_one_of_ne_zero hne]
      simp
    obtain ⟨e1, e2⟩ := pow_w hw
    have hk2 : (2 : Int) ^ k ≤ 2 ^ (w - 3) := pow_le_pow_right₀ (by norm_num) hk
    have hkp : (0 : Int) < 2 ^ k := by positivity
    rw [wZOrderImpl, zOrderImpl, if_neg (fun h => hne h.1), if_neg hne, if_neg (fun h => hne h.1), if_neg hne, hpred]
    have := zSame_step (end_ := end_) (z := z) (dim := i.succ) (step := step)
      (rec := fun z => wZOrderImpl end_ z i.castSucc step)
      (recI := fun z => zOrderImpl (wInts end_) z i.castSucc (2 ^ k))
      (by have := hz i.succ; unfold Fit; omega) (ih z hz)
      (fun t vt ht => ih _ (zBound_update hz he (by have := hz i.succ; omega) ht))
    rw [hstep] at this
    exact this

theorem wZOrderImpl_eq (hw : 3 ≤ w) {n : Nat} (end_ : Fin (n + 1) → BitVec w)
    (he : ∀ d, (end_ d).toInt ≤ 2 ^ (w - 2)) (k : Nat) (hk : k ≤ w - 3) :
    ∀ (step : BitVec w), step.toInt = 2 ^ k → ∀ (dim : Fin (n + 1)) (z : Fin (n + 1) → BitVec w),
      (∀ d, 0 ≤ (z d).toInt ∧ (z d).toInt ≤ 2 ^ (w - 2)) →
      ZSame (wZOrderImpl end_ z dim step) (zOrderImpl (wInts end_) (wInts z) dim (2 ^ k)) := by
  obtain ⟨e1, e2⟩ := pow_w hw
  have one : (1#w).toInt = 1 := one_toInt (by omega)
  induction k with
  | zero =>
    intro step hstep dim
    refine wZOrderImpl_dims hw end_ he 0 hk step hstep ?_ dim
    intro z hz
    have hs : step = 1#w := BitVec.eq_of_toInt_eq (by rw [hstep, one]; rfl)
    have hp : (0 : Int) < 2 ^ (w - 3) := by positivity
    rw [wZOrderImpl, zOrderImpl, if_pos ⟨rfl, hs⟩, if_pos ⟨rfl, rfl⟩]
    obtain ⟨t, ht, vt⟩ := wval_add (a := z 0) (b := 1#w) rfl one (by have := hz 0; unfold Fit; omega)
    rw [ht]
    simp only [Option.bind_eq_bind, Option.bind_some, Function.update_self]
    have e : wInts z 0 + 1 = t.toInt := by rw [vt]; rfl
    rw [e]
    refine ⟨_, rfl, ?_⟩
    rw [List.map_cons]
    by_cases h : t.toInt < (end_ 0).toInt
    · rw [if_pos (BitVec.slt_iff_toInt_lt.2 h), if_pos (show t.toInt < wInts end_ 0 from h)]
      simp [wInts_update]
    · rw [if_neg (fun hc => h (BitVec.slt_iff_toInt_lt.1 hc)), if_neg (show ¬ t.toInt < wInts end_ 0 from h)]
      simp
  | succ k ih =>
    intro step hstep dim
    refine wZOrderImpl_dims hw end_ he (k + 1) hk step hstep ?_ dim
    intro z hz
    have hk2 : (2 : Int) ^ (k + 1) ≤ 2 ^ (w - 3) := pow_le_pow_right₀ (by norm_num) hk
    have hkp : (0 : Int) < 2 ^ k := by positivity
    have hshift : (2 : Int) ^ (k + 1) >>> 1 = 2 ^ k := by
      rw [Int.shiftRight_eq_div_pow, pow_succ]; simp
    have hshift' : (step.sshiftRight 1).toInt = 2 ^ k := by
      rw [BitVec.toInt_sshiftRight, hstep, hshift]
    have hne : (2 : Int) ^ (k + 1) ≠ 1 := by rw [pow_succ]; omega
    have hne' : step ≠ 1#w := by
      rintro rfl
      rw [one] at hstep
      exact hne hstep.symm
    rw [wZOrderImpl, zOrderImpl, if_neg (fun h => hne' h.2), if_pos rfl, if_neg (fun h => hne h.2), if_pos rfl, hshift]
    have := zSame_step (end_ := end_) (z := z) (dim := 0) (step := step)
      (rec := fun z => wZOrderImpl end_ z (Fin.last n) (step.sshiftRight 1))
      (recI := fun z => zOrderImpl (wInts end_) z (Fin.last n) (2 ^ k))
      (by have := hz 0; unfold Fit; omega) (ih (by omega) _ hshift' _ z hz)
      (fun t vt ht => ih (by omega) _ hshift' _ _ (zBound_update hz he (by have := hz 0; omega) ht))
    rw [hstep] at this
    exact this

theorem wMaxElement_toInt {n : Nat} (end_ : Fin (n + 1) → BitVec w) :
    (wMaxElement end_).toInt = maxElement (wInts end_) := by
  have key : ∀ (l : List (BitVec w)) (m : BitVec w),
      (l.foldl (fun m x => if m.slt x then x else m) m).toInt =
        (l.map BitVec.toInt).foldl (fun m x => if m < x then x else m) m.toInt := by
    intro l
    induction l with
    | nil => intro m; rfl
    | cons x l ih =>
      intro m
      rw [List.foldl_cons, ih, List.map_cons, List.foldl_cons]
      congr 1
      by_cases h : m.toInt < x.toInt
      · rw [if_pos (BitVec.slt_iff_toInt_lt.2 h), if_pos h]
      · rw [if_neg (fun hc => h (BitVec.slt_iff_toInt_lt.1 hc)), if_neg h]
  unfold wMaxElement maxElement
  rw [key, List.map_ofFn]
  rfl

theorem maxElement_le {n : Nat} {end_ : Fin (n + 1) → Int} {B : Int} (h : ∀ d, end_ d ≤ B) : maxElement end_ ≤ B := by
  have key : ∀ (l : List Int) (m : Int), m ≤ B → (∀ x ∈ l, x ≤ B) →
      l.foldl (fun m x => if m < x then x else m) m ≤ B := by
    intro l
    induction l with
    | nil => intro m hm _; exact hm
    | cons x l ih =>
      intro m hm hl
      rw [List.foldl_cons]
      apply ih
      · split
        · exact hl x (by simp)
        · exact hm
      · exact fun y hy => hl y (by simp [hy])
  refine key _ _ (h 0) ?_
  intro x hx
  obtain ⟨d, rfl⟩ := (List.mem_ofFn).1 hx
  exact h d

theorem wForEachIndexInZOrder_same (hw : 3 ≤ w) {n : Nat} (end_ : Fin (n + 1) → BitVec w)
    (he : ∀ d, (end_ d).toInt ≤ 2 ^ (w - 2)) :
    ZSame (wForEachIndexInZOrder end_) (forEachIndexInZOrder (wInts end_)) := by
  obtain ⟨p, j, hp, hp', hj, vp⟩ := wNextPowerOfTwoLoop_eq hw (x := wMaxElement end_)
    (by rw [wMaxElement_toInt]; exact maxElement_le he) (w - 2) 0 1#w (by omega) (by rw [one_toInt (by omega)]; rfl)
  unfold wForEachIndexInZOrder forEachIndexInZOrder wNextPowerOfTwo nextPowerOfTwo
  rw [pow_zero, wMaxElement_toInt] at hp'
  rw [hp, hp']
  simp only [Option.bind_eq_bind, Option.bind_some]
  have one : (1#w).toInt = 1 := one_toInt (by omega)
  have hs : (p.sshiftRight 1).toInt = p.toInt >>> 1 := BitVec.toInt_sshiftRight ..
  have hmax : (if (1#w).slt (p.sshiftRight 1) then p.sshiftRight 1 else 1#w).toInt = max (1 : Int) (p.toInt >>> 1) := by
    split
    · rename_i h; rw [BitVec.slt_iff_toInt_lt, one, hs] at h; rw [hs]; omega
    · rename_i h; rw [BitVec.slt_iff_toInt_lt, one, hs] at h; rw [one]; omega
  have hk : ∃ k : Nat, k ≤ w - 3 ∧ max (1 : Int) (p.toInt >>> 1) = 2 ^ k := by
    rw [vp]
    cases j with
    | zero => exact ⟨0, by omega, by simp [Int.shiftRight_eq_div_pow]⟩
    | succ k =>
      refine ⟨k, by omega, ?_⟩
      have h1 : (2 : Int) ^ (k + 1) >>> 1 = 2 ^ k := by
        rw [Int.shiftRight_eq_div_pow, pow_succ]; simp
      rw [h1]
      exact max_eq_right (by have : (0 : Int) < 2 ^ k := by positivity
                             omega)
  obtain ⟨k, hk1, hk2⟩ := hk
  rw [hk2] at hmax ⊢
  have hp2 : (0 : Int) < 2 ^ (w - 2) := by positivity
  have := wZOrderImpl_eq hw end_ he k hk1 _ hmax (Fin.last n) (fun _ => 0#w) (fun d => by simp [hp2.le])
  have e : wInts (fun _ : Fin (n + 1) => 0#w) = fun _ => 0 := by funext d; simp [wInts]
  rw [e] at this
  exact this

end Nda
