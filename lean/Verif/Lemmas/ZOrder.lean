import Verif.Model.ZOrder
import Verif.Spec.ZOrder
import Mathlib.Order.Fin.Basic
import Mathlib.Data.Fintype.Pi
import Mathlib.Tactic.Ring
import Mathlib.Tactic.Linarith
/-
z-order traversal.
-/
namespace Nda
open Spec

theorem nextPowerOfTwoLoop_ok (x : Int) (j : Nat) : ∃ k, nextPowerOfTwoLoop x (2 ^ j) = some (2 ^ k) ∧ x ≤ 2 ^ k := by
  induction h : (x - 2 ^ j).toNat using Nat.strongRecOn generalizing j with
  | _ m ih =>
    rw [nextPowerOfTwoLoop]
    by_cases hx : (2 : Int) ^ j < x
    · rw [if_pos hx]
      have hp : (0 : Int) < 2 ^ j := by positivity
      have := ih ((x - 2 ^ (j + 1)).toNat) (by rw [pow_succ]; omega) (j + 1) rfl
      rw [pow_succ] at this
      exact this
    · rw [if_neg hx]; exact ⟨j, rfl, by omega⟩

theorem nextPowerOfTwo_ok (x : Int) : ∃ k, nextPowerOfTwo x = some (2 ^ k) ∧ x ≤ 2 ^ k := by
  simpa [nextPowerOfTwo] using nextPowerOfTwoLoop_ok x 0

theorem MortonLt.irrefl {n : Nat} (a : Fin n → Int) : ¬ MortonLt a a := by
  rintro ⟨k, d, _, _, h⟩; exact lt_irrefl _ h

/-- Sizes of the part of the box that a call of `for_each_index_in_z_order_impl` is responsible for:
dimensions up to `dim` have two steps, the others one. -/
def zWidth {n : Nat} (dim : Fin n) (k : Nat) (d : Fin n) : Int := if d ≤ dim then 2 ^ (k + 1) else 2 ^ k

def ZPart {n : Nat} (end_ z w p : Fin n → Int) : Prop :=
  ∀ d, z d ≤ p d ∧ p d < z d + w d ∧ p d < end_ d

/-- What a call has to do. -/
def ZGood {n : Nat} (end_ z w : Fin n → Int) (r : Option (List (Fin n → Int))) : Prop :=
  ∃ l, r = some l ∧ (∀ p, p ∈ l ↔ ZPart end_ z w p) ∧ l.Pairwise MortonLt

theorem ediv_of_aligned {m z p : Int} (hm : 0 < m) (hd : m ∣ z) (h1 : z ≤ p) (h2 : p < z + m) : p / m = z / m := by
  obtain ⟨c, rfl⟩ := hd
  rw [Int.mul_ediv_cancel_left _ hm.ne']
  rw [Int.ediv_eq_iff_of_pos hm]
  constructor <;> nlinarith

theorem ediv_pow_succ (p : Int) (k : Nat) : p / 2 ^ (k + 1) = p / 2 ^ k / 2 := by
  rw [pow_succ, Int.ediv_ediv_of_nonneg (by positivity)]

/-- Two calls for the halves in dimension `dim`. -/
theorem z_step {n : Nat} {end_ z : Fin n → Int} {dim : Fin n} {k : Nat} {a b : Option (List (Fin n → Int))}
    (hal : ∀ d, zWidth dim k d ∣ z d)
    (ha : ZGood end_ z (Function.update (zWidth dim k) dim (2 ^ k)) a)
    (hb : z dim + 2 ^ k < end_ dim → ZGood end_ (Function.update z dim (z dim + 2 ^ k))
      (Function.update (zWidth dim k) dim (2 ^ k)) b) :
    ZGood end_ z (zWidth dim k)
      (a >>= fun x => if (Function.update z dim (z dim + 2 ^ k)) dim < end_ dim then b >>= fun y => pure (x ++ y)
        else pure x) := by
  obtain ⟨la, rfl, hma, hpa⟩ := ha
  rw [Function.update_self]
  have h2 : (2 : Int) ^ (k + 1) = 2 * 2 ^ k := by ring
  have hp : (0 : Int) < 2 ^ k := by positivity
  have hw : zWidth dim k dim = 2 * 2 ^ k := by rw [zWidth, if_pos le_rfl, h2]
  by_cases hc : z dim + 2 ^ k < end_ dim
  · obtain ⟨lb, rfl, hmb, hpb⟩ := hb hc
    refine ⟨la ++ lb, ?_, ?_, ?_⟩
    · show (if _ then _ else _) = _
      rw [if_pos hc]; rfl
    · intro p
      rw [List.mem_append, hma, hmb]
      constructor
      · rintro (h | h) d
        · have := h d
          by_cases hd : d = dim
          · subst hd; rw [Function.update_self] at this; rw [hw]; omega
          · rwa [Function.update_of_ne hd] at this
        · have := h d
          by_cases hd : d = dim
          · subst hd; rw [Function.update_self, Function.update_self] at this; rw [hw]; omega
          · rwa [Function.update_of_ne hd, Function.update_of_ne hd] at this
      · intro h
        by_cases hpd : p dim < z dim + 2 ^ k
        · left; intro d
          have := h d
          by_cases hd : d = dim
          · subst hd; rw [Function.update_self]; omega
          · rwa [Function.update_of_ne hd]
        · right; intro d
          have := h d
          by_cases hd : d = dim
          · subst hd; rw [hw] at this; rw [Function.update_self, Function.update_self]; omega
          · rwa [Function.update_of_ne hd, Function.update_of_ne hd]
    · rw [List.pairwise_append]
      refine ⟨hpa, hpb, ?_⟩
      intro p hp' q hq'
      have hp' := (hma p).1 hp'
      have hq' := (hmb q).1 hq'
      have hle : ∀ e, e < dim ∨ dim < e → p e / zWidth dim k e = q e / zWidth dim k e := by
        intro e he
        have hne : e ≠ dim := by rcases he with h | h; exact ne_of_lt h; exact ne_of_gt h
        have h1 := hp' e
        have h2 := hq' e
        rw [Function.update_of_ne hne] at h1
        rw [Function.update_of_ne hne, Function.update_of_ne hne] at h2
        have hpos : 0 < zWidth dim k e := by unfold zWidth; split <;> positivity
        rw [ediv_of_aligned hpos (hal e) h1.1 h1.2.1, ediv_of_aligned hpos (hal e) h2.1 h2.2.1]
      have hp1 := hp' dim
      have hq1 := hq' dim
      rw [Function.update_self] at hp1
      rw [Function.update_self, Function.update_self] at hq1
      have hald := hal dim
      rw [hw] at hald
      refine ⟨k, dim, fun e => ?_, fun e he => ?_, ?_⟩
      · rcases lt_trichotomy e dim with he | rfl | he
        · have := hle e (Or.inl he)
          rwa [zWidth, if_pos he.le] at this
        · rw [h2]
          exact (ediv_of_aligned (by omega) hald hp1.1 (by omega)).trans
            (ediv_of_aligned (by omega) hald (by omega) (by omega)).symm
        · have := hle e (Or.inr he)
          rw [zWidth, if_neg (not_le.2 he)] at this
          rw [ediv_pow_succ, ediv_pow_succ, this]
      · have := hle e (Or.inr he)
        rwa [zWidth, if_neg (not_le.2 he)] at this
      · have hk : (2 : Int) ^ k ∣ z dim := dvd_trans (Dvd.intro_left 2 rfl) hald
        rw [ediv_of_aligned hp hk hp1.1 hp1.2.1, ediv_of_aligned hp (Int.dvd_add hk (dvd_refl _)) hq1.1 hq1.2.1,
          Int.add_ediv_of_dvd_right (dvd_refl _), Int.ediv_self hp.ne']
        omega
  · refine ⟨la, ?_, ?_, hpa⟩
    · show (if _ then _ else _) = _
      rw [if_neg hc]; rfl
    · intro p
      rw [hma]
      constructor <;> intro h d <;> have := h d <;> by_cases hd : d = dim
      · subst hd; rw [Function.update_self] at this; rw [hw]; omega
      · rwa [Function.update_of_ne hd] at this
      · subst hd; rw [hw] at this; rw [Function.update_self]; omega
      · rwa [Function.update_of_ne hd]

theorem update_zWidth_succ {n : Nat} (i : Fin n) (k : Nat) :
    Function.update (zWidth i.succ k) i.succ (2 ^ k) = zWidth i.castSucc k := by
  funext d
  by_cases hd : d = i.succ
  · subst hd
    rw [Function.update_self, zWidth, if_neg]
    simp [Fin.le_def]
  · rw [Function.update_of_ne hd]
    unfold zWidth
    have : d ≤ i.succ ↔ d ≤ i.castSucc := by
      simp only [Fin.le_def, Fin.val_succ, Fin.val_castSucc]
      have : d.val ≠ i.val + 1 := fun h => hd (Fin.ext (by simpa using h))
      omega
    simp only [this]

theorem update_zWidth_zero {n : Nat} (k : Nat) :
    Function.update (zWidth (0 : Fin (n + 1)) (k + 1)) 0 (2 ^ (k + 1)) = zWidth (Fin.last n) k := by
  funext d
  rw [zWidth, if_pos (Fin.le_last d)]
  by_cases hd : d = 0
  · subst hd; rw [Function.update_self]
  · rw [Function.update_of_ne hd, zWidth, if_neg]
    intro h
    exact hd (Fin.le_zero_iff.1 h)

theorem aligned_update {n : Nat} {z : Fin n → Int} {dim : Fin n} {k : Nat} (hal : ∀ d, zWidth dim k d ∣ z d) :
    (∀ d, Function.update (zWidth dim k) dim (2 ^ k) d ∣ z d) ∧
    ∀ d, Function.update (zWidth dim k) dim (2 ^ k) d ∣ Function.update z dim (z dim + 2 ^ k) d := by
  have h : (2 : Int) ^ k ∣ z dim := by
    have := hal dim
    rw [zWidth, if_pos le_rfl] at this
    exact dvd_trans ⟨2, by ring⟩ this
  constructor <;> intro d <;> by_cases hd : d = dim
  · subst hd; rw [Function.update_self]; exact h
  · rw [Function.update_of_ne hd]; exact hal d
  · subst hd; rw [Function.update_self, Function.update_self]; exact Int.dvd_add h (dvd_refl _)
  · rw [Function.update_of_ne hd, Function.update_of_ne hd]; exact hal d

theorem update_lt {n : Nat} {end_ z : Fin n → Int} (hlt : ∀ d, z d < end_ d) {dim : Fin n} {v : Int}
    (h : v < end_ dim) (d : Fin n) : Function.update z dim v d < end_ d := by
  by_cases hd : d = dim
  · subst hd; rwa [Function.update_self]
  · rw [Function.update_of_ne hd]; exact hlt d

/-- From the first dimension to all. -/
theorem zOrderImpl_dims {n : Nat} (end_ : Fin (n + 1) → Int) (k : Nat)
    (h0 : ∀ z : Fin (n + 1) → Int, (∀ d, z d < end_ d) → (∀ d, zWidth 0 k d ∣ z d) →
      ZGood end_ z (zWidth 0 k) (zOrderImpl end_ z 0 (2 ^ k))) (dim : Fin (n + 1)) :
    ∀ z : Fin (n + 1) → Int, (∀ d, z d < end_ d) → (∀ d, zWidth dim k d ∣ z d) →
      ZGood end_ z (zWidth dim k) (zOrderImpl end_ z dim (2 ^ k)) := by
  induction dim using Fin.induction with
  | zero => exact h0
  | succ i ih =>
    intro z hlt hal
    have hne : i.succ ≠ 0 := Fin.succ_ne_zero i
    have hpred : i.succ - 1 = i.castSucc := by
      ext
      rw [Fin.val_sub_one_of_ne_zero hne]
      simp
    rw [zOrderImpl, if_neg (fun h => hne h.1), if_neg hne, hpred]
    obtain ⟨ha, hb⟩ := aligned_update hal
    rw [update_zWidth_succ] at ha hb
    refine z_step hal ?_ ?_
    · rw [update_zWidth_succ]; exact ih z hlt ha
    · intro hc
      rw [update_zWidth_succ]
      exact ih _ (update_lt hlt hc) hb

theorem zOrderImpl_good {n : Nat} (end_ : Fin (n + 1) → Int) (k : Nat) (dim : Fin (n + 1)) (z : Fin (n + 1) → Int)
    (hlt : ∀ d, z d < end_ d) (hal : ∀ d, zWidth dim k d ∣ z d) :
    ZGood end_ z (zWidth dim k) (zOrderImpl end_ z dim (2 ^ k)) := by
  induction k generalizing dim z with
  | zero =>
    refine zOrderImpl_dims end_ 0 ?_ dim z hlt hal
    clear hlt hal z dim
    intro z hlt hal
    have hw : ∀ d : Fin (n + 1), Function.update (zWidth 0 0) 0 1 d = 1 := by
      intro d
      by_cases hd : d = 0
      · subst hd; rw [Function.update_self]
      · rw [Function.update_of_ne hd, zWidth, if_neg (fun h => hd (Fin.le_zero_iff.1 h))]; rfl
    have single : ∀ y : Fin (n + 1) → Int, (∀ d, y d < end_ d) →
        ZGood end_ y (Function.update (zWidth 0 0) 0 1) (some [y]) := by
      intro y hy
      refine ⟨[y], rfl, fun p => ?_, List.pairwise_singleton _ _⟩
      rw [List.mem_singleton]
      constructor
      · rintro rfl d; rw [hw]; have := hy d; omega
      · intro h; funext d; have := h d; rw [hw] at this; omega
    have := z_step (a := some [z]) (b := some [Function.update z 0 (z 0 + 1)]) hal
      (by simpa using single z hlt) (fun hc => by simpa using single _ (update_lt hlt hc))
    rw [pow_zero] at this ⊢
    rw [zOrderImpl, if_pos ⟨rfl, rfl⟩]
    convert this using 1
    show some (z :: if Function.update z 0 (z 0 + 1) 0 < end_ 0 then [Function.update z 0 (z 0 + 1)] else []) =
      (if _ then _ else _)
    split <;> rfl
  | succ k ih =>
    refine zOrderImpl_dims end_ (k + 1) ?_ dim z hlt hal
    clear hlt hal z dim
    intro z hlt hal
    have hshift : (2 : Int) ^ (k + 1) >>> 1 = 2 ^ k := by
      rw [Int.shiftRight_eq_div_pow, pow_succ]; simp
    have hne : (2 : Int) ^ (k + 1) ≠ 1 := by
      have : (0 : Int) < 2 ^ k := by positivity
      rw [pow_succ]; omega
    rw [zOrderImpl, if_neg (fun h => hne h.2), if_pos rfl, hshift]
    obtain ⟨ha, hb⟩ := aligned_update hal
    rw [update_zWidth_zero] at ha hb
    refine z_step hal ?_ ?_
    · rw [update_zWidth_zero]; exact ih _ z hlt ha
    · intro hc
      rw [update_zWidth_zero]
      exact ih _ _ (update_lt hlt hc) hb

theorem le_maxElement {n : Nat} (end_ : Fin (n + 1) → Int) (d : Fin (n + 1)) : end_ d ≤ maxElement end_ := by
  have key : ∀ (l : List Int) (m : Int), m ≤ l.foldl (fun m x => if m < x then x else m) m ∧
      ∀ x ∈ l, x ≤ l.foldl (fun m x => if m < x then x else m) m := by
    intro l
    induction l with
    | nil => intro m; simp
    | cons y ys ih =>
      intro m
      simp only [List.foldl_cons]
      have := ih (if m < y then y else m)
      refine ⟨?_, ?_⟩
      · refine le_trans ?_ this.1
        split <;> omega
      · intro x hx
        rcases List.mem_cons.1 hx with rfl | hx
        · refine le_trans ?_ this.1
          split <;> omega
        · exact this.2 x hx
  exact (key _ _).2 _ (by rw [List.mem_ofFn]; exact ⟨d, rfl⟩)

theorem forEachIndexInZOrder_ok {n : Nat} (end_ : Fin (n + 1) → Int) (hpos : ∀ d, 0 < end_ d) :
    ∃ l, forEachIndexInZOrder end_ = some l ∧ (∀ p, p ∈ l ↔ ∀ d, 0 ≤ p d ∧ p d < end_ d) ∧
      l.Pairwise MortonLt := by
  obtain ⟨j, hj, hle⟩ := nextPowerOfTwo_ok (maxElement end_)
  have hstep : ∃ k : Nat, max (1 : Int) ((2 ^ j : Int) >>> 1) = 2 ^ k ∧ (2 : Int) ^ j ≤ 2 ^ (k + 1) := by
    cases j with
    | zero => exact ⟨0, by simp [Int.shiftRight_eq_div_pow], by norm_num⟩
    | succ k =>
      refine ⟨k, ?_, le_rfl⟩
      have h1 : (2 : Int) ^ (k + 1) >>> 1 = 2 ^ k := by
        rw [Int.shiftRight_eq_div_pow, pow_succ]; simp
      rw [h1]
      exact max_eq_right (by have : (0 : Int) < 2 ^ k := by positivity
                             omega)
  obtain ⟨k, hk, hjk⟩ := hstep
  obtain ⟨l, e, hm, hp⟩ := zOrderImpl_good end_ k (Fin.last n) (fun _ => 0) hpos (fun _ => dvd_zero _)
  refine ⟨l, ?_, ?_, hp⟩
  · unfold forEachIndexInZOrder
    rw [hj]
    show zOrderImpl _ _ _ (max 1 ((2 ^ j : Int) >>> 1)) = _
    rw [hk]; exact e
  · intro p
    rw [hm]
    constructor
    · intro h d; exact ⟨(h d).1, (h d).2.2⟩
    · intro h d
      refine ⟨(h d).1, ?_, (h d).2⟩
      rw [zWidth, if_pos (Fin.le_last d)]
      have := le_maxElement end_ d
      have := h d
      show p d < 0 + 2 ^ (k + 1)
      omega

/-! ### Evaluating concrete traversals -/

/-- The recursion with a bound on its depth, for examples. -/
def zOrderRun {n : Nat} (end_ : Fin (n + 1) → Int) : Nat → (Fin (n + 1) → Int) → Fin (n + 1) → Int →
    Option (List (Fin (n + 1) → Int))
  | 0, _, _, _ => none
  | f + 1, z, dim, step =>
    if dim = 0 ∧ step = 1 then
      let z' := Function.update z 0 (z 0 + 1)
      some (z :: if z' 0 < end_ 0 then [z'] else [])
    else if dim = 0 then do
      let a ← zOrderRun end_ f z (Fin.last n) (step >>> 1)
      let z' := Function.update z 0 (z 0 + step)
      if z' 0 < end_ 0 then
        let b ← zOrderRun end_ f z' (Fin.last n) (step >>> 1)
        pure (a ++ b)
      else pure a
    else do
      let a ← zOrderRun end_ f z (dim - 1) step
      let z' := Function.update z dim (z dim + step)
      if z' dim < end_ dim then
        let b ← zOrderRun end_ f z' (dim - 1) step
        pure (a ++ b)
      else pure a

theorem zOrderRun_sound {n : Nat} (end_ : Fin (n + 1) → Int) (f : Nat) (z : Fin (n + 1) → Int) (dim : Fin (n + 1))
    (step : Int) (l : List (Fin (n + 1) → Int)) (h : zOrderRun end_ f z dim step = some l) :
    zOrderImpl end_ z dim step = some l := by
  induction f generalizing z dim step l with
  | zero => simp [zOrderRun] at h
  | succ f ih =>
    rw [zOrderRun] at h
    rw [zOrderImpl]
    split at h
    · rename_i hc; rw [if_pos hc]; exact h
    · rename_i hc
      rw [if_neg hc]
      split at h
      · rename_i hd
        rw [if_pos hd]
        simp only [Option.bind_eq_bind, Option.bind_eq_some_iff] at h ⊢
        obtain ⟨a, ha, h⟩ := h
        refine ⟨a, ih _ _ _ _ ha, ?_⟩
        split at h
        · rename_i he; rw [if_pos he]
          simp only [Option.bind_eq_some_iff] at h ⊢
          obtain ⟨b, hb, h⟩ := h
          exact ⟨b, ih _ _ _ _ hb, h⟩
        · rename_i he; rw [if_neg he]; exact h
      · rename_i hd
        rw [if_neg hd]
        simp only [Option.bind_eq_bind, Option.bind_eq_some_iff] at h ⊢
        obtain ⟨a, ha, h⟩ := h
        refine ⟨a, ih _ _ _ _ ha, ?_⟩
        split at h
        · rename_i he; rw [if_pos he]
          simp only [Option.bind_eq_some_iff] at h ⊢
          obtain ⟨b, hb, h⟩ := h
          exact ⟨b, ih _ _ _ _ hb, h⟩
        · rename_i he; rw [if_neg he]; exact h

theorem forEachIndexInZOrder_eval {n : Nat} {end_ : Fin (n + 1) → Int} {m p : Int} {f : Nat}
    {l : List (Fin (n + 1) → Int)} (hm : maxElement end_ = m) (hp : nextPowerOfTwo m = some p)
    (h : zOrderRun end_ f (fun _ => 0) (Fin.last n) (max (1 : Int) (p >>> 1)) = some l) :
    forEachIndexInZOrder end_ = some l := by
  unfold forEachIndexInZOrder
  rw [hm, hp]
  exact zOrderRun_sound _ _ _ _ _ _ h

theorem nextPowerOfTwo_one : nextPowerOfTwo 1 = some 1 := by
  rw [nextPowerOfTwo, nextPowerOfTwoLoop, if_neg (by decide)]

theorem nextPowerOfTwo_three : nextPowerOfTwo 3 = some 4 := by
  rw [nextPowerOfTwo, nextPowerOfTwoLoop, if_pos (by decide), nextPowerOfTwoLoop, if_pos (by decide),
    nextPowerOfTwoLoop, if_neg (by decide)]
  rfl

end Nda
