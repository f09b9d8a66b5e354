import Verif.Props.Euclid
import Verif.Spec.Rational
import Mathlib.Data.Rat.Floor
import Mathlib.Tactic.FieldSimp
import Mathlib.Algebra.Order.Field.Rat
import Mathlib.Algebra.Order.Field.Basic
/-
C45: class `rational<index_t>`.
-/
namespace Nda
open Spec

theorem one64 : (1#64).toInt = 1 := by decide
theorem two64 : (2#64).toInt = 2 := by decide

theorem mod_pos_some {a b : BitVec 64} (hb : 0 < b.toInt) :
    ∃ r, euclideanMod a b = some r ∧ r.toInt = a.toInt % b.toInt := by
  obtain ⟨r, q, h, e, h0, h1⟩ := C44_mod (by decide) a b (by rintro rfl; simp at hb)
    (by rintro ⟨_, rfl⟩; revert hb; decide) (by rintro rfl; revert hb; decide)
  refine ⟨r, h, ?_⟩
  rw [abs_of_pos hb] at h1
  rw [e, Int.add_comm, Int.add_mul_emod_self_right, Int.emod_eq_of_lt h0 h1]

theorem div_pos_some {a b : BitVec 64} (hb : 0 < b.toInt) :
    ∃ q, euclideanDiv a b = some q ∧ q.toInt = a.toInt / b.toInt := by
  obtain ⟨q, h, h0, h1⟩ := C44_div (by decide) a b (by rintro rfl; simp at hb)
    (by rintro ⟨_, rfl⟩; revert hb; decide)
  exact ⟨q, h, ediv_unique' h0 h1 (by omega)⟩

theorem gcdT_unfold {w : Nat} (a b : BitVec w) :
    gcdT a b = if b = 0#w then some a else (euclideanMod a b).bind fun r => gcdT b r := by
  rw [gcdT]; rfl

/-- C45: `gcd(a, b)` with positive `b` ends and is the greatest common divisor. -/
theorem C45_gcd (a b : BitVec 64) (hb : 0 < b.toInt) :
    ∃ g, gcdT a b = some g ∧ g.toInt = (Int.gcd a.toInt b.toInt : Int) := by
  induction h : b.toInt.toNat using Nat.strong_induction_on generalizing a b with
  | _ n ih =>
    obtain ⟨r, hr, er⟩ := mod_pos_some (a := a) hb
    rw [gcdT_unfold, if_neg (by rintro rfl; simp at hb), hr, Option.bind_some]
    have h0 := Int.emod_nonneg a.toInt (show b.toInt ≠ 0 by omega)
    have h1 := Int.emod_lt_of_pos a.toInt hb
    have hg : Int.gcd b.toInt r.toInt = Int.gcd a.toInt b.toInt := by
      rw [er, Int.gcd_comm, Int.gcd_emod, Int.gcd_comm]
    by_cases hz : r.toInt = 0
    · rw [gcdT_unfold, if_pos (toInt_eq_zero.1 hz)]
      refine ⟨b, rfl, ?_⟩
      rw [← hg, hz, Int.gcd_zero_right]
      omega
    · obtain ⟨g, h2, h3⟩ := ih r.toInt.toNat (by omega) b r (by omega) rfl
      exact ⟨g, h2, by rw [h3, hg]⟩

theorem sdiv_exact {a g : BitVec 64} (hg : 0 < g.toInt) (hd : g.toInt ∣ a.toInt) :
    ∃ q, cdiv a g = some q ∧ q.toInt * g.toInt = a.toInt := by
  obtain ⟨e, v⟩ := cdiv_some (a := a) (b := g) (by
    rintro (rfl | ⟨_, rfl⟩)
    · simp at hg
    · revert hg; decide)
  exact ⟨_, e, by rw [v, Int.tdiv_mul_cancel hd]⟩

/-- C45: `rational(n, d)` with positive `d` is defined, canonical and stands for n/d. -/
theorem C45_make (n d : BitVec 64) (hd : 0 < d.toInt) :
    ∃ r, Rational.mk2 n d = some r ∧ Canonical r ∧ value r = (n.toInt : ℚ) / d.toInt := by
  obtain ⟨g, hg, eg⟩ := C45_gcd n d hd
  have hgpos : 0 < g.toInt := by
    rw [eg]
    have := Int.gcd_pos_of_ne_zero_right n.toInt (show d.toInt ≠ 0 by omega)
    exact_mod_cast this
  obtain ⟨n', hn, en⟩ := sdiv_exact (a := n) hgpos (by rw [eg]; exact Int.gcd_dvd_left ..)
  obtain ⟨d', hd', ed⟩ := sdiv_exact (a := d) hgpos (by rw [eg]; exact Int.gcd_dvd_right ..)
  refine ⟨⟨n', d'⟩, ?_, ⟨?_, ?_⟩, ?_⟩
  · unfold Rational.mk2 Rational.reduce
    simp only [hg, hn, hd', Option.bind_eq_bind, Option.bind_some, Option.pure_def]
  · simp only
    by_contra hc
    have : d'.toInt * g.toInt ≤ 0 := mul_nonpos_of_nonpos_of_nonneg (by omega) (by omega)
    omega
  · simp only
    have h1 : (Int.gcd n.toInt d.toInt : Int) = Int.gcd n'.toInt d'.toInt * g.toInt := by
      rw [← en, ← ed, Int.gcd_mul_right]
      push_cast
      rw [abs_of_pos hgpos]
    rw [← eg] at h1
    have h2 : ((Int.gcd n'.toInt d'.toInt : Int) - 1) * g.toInt = 0 := by linarith
    rcases mul_eq_zero.1 h2 with h | h
    · omega
    · omega
  · unfold value
    simp only
    rw [← en, ← ed]
    push_cast
    have : (g.toInt : ℚ) ≠ 0 := by exact_mod_cast hgpos.ne'
    rw [mul_div_mul_right _ _ this]

/-- C45: the integer constructor. -/
theorem C45_ofInt (x : BitVec 64) : Canonical (.ofInt x) ∧ value (.ofInt x) = x.toInt := by
  unfold Canonical value Rational.ofInt
  simp [one64]

theorem bind_some_inv {α β : Type} {x : Option α} {f : α → Option β} {y : β}
    (h : (x >>= f) = some y) : ∃ a, x = some a ∧ f a = some y := Option.bind_eq_some_iff.1 h

variable {l r t : Rational}

theorem denom_ne (h : Canonical r) : (r.d.toInt : ℚ) ≠ 0 := by exact_mod_cast h.1.ne'

theorem make_inv {n d : BitVec 64} (hd : 0 < d.toInt) (h : Rational.mk2 n d = some t) :
    Canonical t ∧ value t = (n.toInt : ℚ) / d.toInt := by
  obtain ⟨r, hr, h1, h2⟩ := C45_make n d hd
  rw [h] at hr
  simp only [Option.some.injEq] at hr
  subst hr
  exact ⟨h1, h2⟩

/-- C45: sums are exact and canonical whenever no intermediate product overflows. -/
theorem C45_add (hl : Canonical l) (hr : Canonical r) (h : l.add r = some t) :
    Canonical t ∧ value t = value l + value r := by
  obtain ⟨a, ha, h⟩ := bind_some_inv h
  obtain ⟨b, hb, h⟩ := bind_some_inv h
  obtain ⟨n, hn, h⟩ := bind_some_inv h
  obtain ⟨d, hd, h⟩ := bind_some_inv h
  have hd0 : 0 < d.toInt := by rw [cmul_inv hd]; exact mul_pos hl.1 hr.1
  obtain ⟨h1, h2⟩ := make_inv hd0 h
  refine ⟨h1, ?_⟩
  rw [h2, cmul_inv hd, cadd_inv hn, cmul_inv ha, cmul_inv hb]
  have := denom_ne hl
  have := denom_ne hr
  unfold value
  push_cast
  field_simp

/-- C45: differences. -/
theorem C45_sub (hl : Canonical l) (hr : Canonical r) (h : l.sub r = some t) :
    Canonical t ∧ value t = value l - value r := by
  obtain ⟨a, ha, h⟩ := bind_some_inv h
  obtain ⟨b, hb, h⟩ := bind_some_inv h
  obtain ⟨n, hn, h⟩ := bind_some_inv h
  obtain ⟨d, hd, h⟩ := bind_some_inv h
  have hd0 : 0 < d.toInt := by rw [cmul_inv hd]; exact mul_pos hl.1 hr.1
  obtain ⟨h1, h2⟩ := make_inv hd0 h
  refine ⟨h1, ?_⟩
  rw [h2, cmul_inv hd, csub_inv hn, cmul_inv ha, cmul_inv hb]
  have := denom_ne hl
  have := denom_ne hr
  unfold value
  push_cast
  field_simp

/-- C45: products. -/
theorem C45_mul (hl : Canonical l) (hr : Canonical r) (h : l.mul r = some t) :
    Canonical t ∧ value t = value l * value r := by
  obtain ⟨n, hn, h⟩ := bind_some_inv h
  obtain ⟨d, hd, h⟩ := bind_some_inv h
  have hd0 : 0 < d.toInt := by rw [cmul_inv hd]; exact mul_pos hl.1 hr.1
  obtain ⟨h1, h2⟩ := make_inv hd0 h
  refine ⟨h1, ?_⟩
  rw [h2, cmul_inv hd, cmul_inv hn]
  unfold value
  push_cast
  rw [div_mul_div_comm]

theorem value_pos_iff (hr : Canonical r) : 0 < value r ↔ 0 < r.n.toInt := by
  have : (0 : ℚ) < r.d.toInt := by exact_mod_cast hr.1
  unfold value
  rw [div_pos_iff_of_pos_right this]
  exact_mod_cast Iff.rfl

/-- C45: quotients by positive rationals. -/
theorem C45_div (hl : Canonical l) (hr : Canonical r) (hp : 0 < value r) (h : l.div r = some t) :
    Canonical t ∧ value t = value l / value r := by
  obtain ⟨n, hn, h⟩ := bind_some_inv h
  obtain ⟨d, hd, h⟩ := bind_some_inv h
  have hd0 : 0 < d.toInt := by rw [cmul_inv hd]; exact mul_pos hl.1 ((value_pos_iff hr).1 hp)
  obtain ⟨h1, h2⟩ := make_inv hd0 h
  refine ⟨h1, ?_⟩
  rw [h2, cmul_inv hd, cmul_inv hn]
  unfold value
  push_cast
  rw [div_div_div_eq]

/-- C45: the operators of an integer and a rational. -/
theorem C45_scalar (x : BitVec 64) (hr : Canonical r) :
    (∀ t, Rational.scalarAdd x r = some t → Canonical t ∧ value t = x.toInt + value r) ∧
    (∀ t, Rational.scalarSub x r = some t → Canonical t ∧ value t = x.toInt - value r) ∧
    (∀ t, Rational.scalarMul x r = some t → Canonical t ∧ value t = x.toInt * value r) ∧
    (∀ t, 0 < value r → Rational.scalarDiv x r = some t → Canonical t ∧ value t = x.toInt / value r) := by
  obtain ⟨h1, h2⟩ := C45_ofInt x
  rw [← h2]
  exact ⟨fun t => C45_add h1 hr, fun t => C45_sub h1 hr, fun t => C45_mul h1 hr,
    fun t hp => C45_div h1 hr hp⟩

theorem small_mul {a b : BitVec 64} (ha : |a.toInt| < 2 ^ 31) (hb : |b.toInt| < 2 ^ 31) :
    ∃ c, cmul a b = some c ∧ |c.toInt| < 2 ^ 62 := by
  have h : |a.toInt * b.toInt| < 2 ^ 62 := by
    rw [abs_mul]
    calc |a.toInt| * |b.toInt| ≤ |a.toInt| * 2 ^ 31 := mul_le_mul_of_nonneg_left hb.le (abs_nonneg _)
      _ < 2 ^ 31 * 2 ^ 31 := mul_lt_mul_of_pos_right ha (by norm_num)
      _ = 2 ^ 62 := by norm_num
  have h' := abs_lt.1 h
  obtain ⟨e, v⟩ := cmul_some (a := a) (b := b) (by
    unfold Fit
    norm_num at h' ⊢
    omega)
  exact ⟨_, e, by rw [v]; exact h⟩

/-- C45: if numerators and denominators fit in 32 bits, nothing overflows: all four operators are
defined on canonical arguments. -/
theorem C45_defined (hl : Canonical l) (hr : Canonical r) (sl : Small l) (sr : Small r) :
    (l.add r).isSome ∧ (l.sub r).isSome ∧ (l.mul r).isSome ∧ (0 < value r → (l.div r).isSome) := by
  obtain ⟨a, ha, ba⟩ := small_mul sl.1 sr.2
  obtain ⟨b, hb, bb⟩ := small_mul sr.1 sl.2
  obtain ⟨c, hc, _⟩ := small_mul sl.2 sr.2
  obtain ⟨e, he, _⟩ := small_mul sl.1 sr.1
  obtain ⟨f, hf, _⟩ := small_mul sl.2 sr.1
  have hc0 : 0 < c.toInt := by rw [cmul_inv hc]; exact mul_pos hl.1 hr.1
  have ba := abs_lt.1 ba
  have bb := abs_lt.1 bb
  have s1 := (cadd_some (a := a) (b := b) (by unfold Fit; norm_num at *; omega)).1
  have s2 := (csub_some (a := a) (b := b) (by unfold Fit; norm_num at *; omega)).1
  have mk := fun n => Option.isSome_iff_exists.2 ((C45_make n c hc0).imp fun _ h => h.1)
  refine ⟨?_, ?_, ?_, ?_⟩
  · unfold Rational.add
    simp only [ha, hb, hc, s1, Option.bind_eq_bind, Option.bind_some]
    exact mk _
  · unfold Rational.sub
    simp only [ha, hb, hc, s2, Option.bind_eq_bind, Option.bind_some]
    exact mk _
  · unfold Rational.mul
    simp only [he, hc, Option.bind_eq_bind, Option.bind_some]
    exact mk _
  · intro hp
    unfold Rational.div
    simp only [ha, hf, Option.bind_eq_bind, Option.bind_some]
    have hf0 : 0 < f.toInt := by rw [cmul_inv hf]; exact mul_pos hl.1 ((value_pos_iff hr).1 hp)
    exact Option.isSome_iff_exists.2 ((C45_make a f hf0).imp fun _ h => h.1)

theorem cross {a b : BitVec 64} (hl : Canonical l) (hr : Canonical r) (ha : cmul l.n r.d = some a)
    (hb : cmul r.n l.d = some b) :
    (a.toInt < b.toInt ↔ value l < value r) ∧ (a.toInt ≤ b.toInt ↔ value l ≤ value r) ∧
    (a = b ↔ value l = value r) := by
  have h1 : (0 : ℚ) < l.d.toInt := by exact_mod_cast hl.1
  have h2 : (0 : ℚ) < r.d.toInt := by exact_mod_cast hr.1
  have e1 := cmul_inv ha
  have e2 := cmul_inv hb
  have key1 : a.toInt < b.toInt ↔ value l < value r := by
    unfold value
    rw [div_lt_div_iff₀ h1 h2, e1, e2]
    exact_mod_cast Iff.rfl
  have key2 : a.toInt ≤ b.toInt ↔ value l ≤ value r := by
    unfold value
    rw [div_le_div_iff₀ h1 h2, e1, e2]
    exact_mod_cast Iff.rfl
  refine ⟨key1, key2, ?_⟩
  rw [← BitVec.toInt_inj]
  unfold value
  rw [div_eq_div_iff h1.ne' h2.ne', e1, e2]
  exact_mod_cast Iff.rfl

/-- C45: the comparisons are those of the rational numbers, whenever the products do not overflow. -/
theorem C45_compare (hl : Canonical l) (hr : Canonical r) :
    (∀ b, l.lt r = some b → (b = true ↔ value l < value r)) ∧
    (∀ b, l.le r = some b → (b = true ↔ value l ≤ value r)) ∧
    (∀ b, l.gt r = some b → (b = true ↔ value l > value r)) ∧
    (∀ b, l.ge r = some b → (b = true ↔ value l ≥ value r)) ∧
    (∀ b, l.eq r = some b → (b = true ↔ value l = value r)) ∧
    (∀ b, l.ne r = some b → (b = true ↔ value l ≠ value r)) := by
  have key : ∀ (f : BitVec 64 → BitVec 64 → Bool) (b : Bool), (do
      let x ← cmul l.n r.d
      let y ← cmul r.n l.d
      pure (f x y)) = some b → ∃ x y, cmul l.n r.d = some x ∧ cmul r.n l.d = some y ∧ b = f x y := by
    intro f b h
    obtain ⟨x, hx, h⟩ := bind_some_inv h
    obtain ⟨y, hy, h⟩ := bind_some_inv h
    simp only [Option.pure_def, Option.some.injEq] at h
    exact ⟨x, y, hx, hy, h.symm⟩
  refine ⟨fun b h => ?_, fun b h => ?_, fun b h => ?_, fun b h => ?_, fun b h => ?_, fun b h => ?_⟩
  · obtain ⟨x, y, hx, hy, rfl⟩ := key (fun x y => x.slt y) b h
    rw [← (cross hl hr hx hy).1, BitVec.slt_iff_toInt_lt]
  · obtain ⟨x, y, hx, hy, rfl⟩ := key (fun x y => x.sle y) b h
    rw [← (cross hl hr hx hy).2.1, BitVec.sle_iff_toInt_le]
  · obtain ⟨x, y, hx, hy, rfl⟩ := key (fun x y => y.slt x) b h
    rw [gt_iff_lt, ← not_le, ← (cross hl hr hx hy).2.1, BitVec.slt_iff_toInt_lt, not_le]
  · obtain ⟨x, y, hx, hy, rfl⟩ := key (fun x y => y.sle x) b h
    rw [ge_iff_le, ← not_lt, ← (cross hl hr hx hy).1, BitVec.sle_iff_toInt_le, not_lt]
  · obtain ⟨x, y, hx, hy, rfl⟩ := key (fun x y => x == y) b h
    rw [← (cross hl hr hx hy).2.2, beq_iff_eq]
  · obtain ⟨x, y, hx, hy, rfl⟩ := key (fun x y => x != y) b h
    rw [ne_eq, ← (cross hl hr hx hy).2.2, bne_iff_ne]

/-- C45: `min` and `max`. -/
theorem C45_min_max (hl : Canonical l) (hr : Canonical r) :
    (∀ t, l.min r = some t → (t = l ∨ t = r) ∧ value t = min (value l) (value r)) ∧
    (∀ t, l.max r = some t → (t = l ∨ t = r) ∧ value t = max (value l) (value r)) := by
  obtain ⟨h1, _, h2, _⟩ := C45_compare hl hr
  constructor
  · intro t h
    obtain ⟨b, hb, h⟩ := bind_some_inv h
    have hb := h1 b hb
    simp only [Option.pure_def, Option.some.injEq] at h
    subst h
    cases b with
    | true => rw [if_pos rfl]; exact ⟨Or.inl rfl, (min_eq_left (hb.1 rfl).le).symm⟩
    | false =>
      have : value r ≤ value l := not_lt.1 fun hc => by simpa using hb.2 hc
      rw [if_neg (by simp)]; exact ⟨Or.inr rfl, (min_eq_right this).symm⟩
  · intro t h
    obtain ⟨b, hb, h⟩ := bind_some_inv h
    have hb := h2 b hb
    simp only [Option.pure_def, Option.some.injEq] at h
    subst h
    cases b with
    | true => rw [if_pos rfl]; exact ⟨Or.inl rfl, (max_eq_left (hb.1 rfl).le).symm⟩
    | false =>
      have : value l ≤ value r := not_lt.1 fun hc => by simpa using hb.2 hc
      rw [if_neg (by simp)]; exact ⟨Or.inr rfl, (max_eq_right this).symm⟩

/-- C45: a number has only one canonical representation, so `==` on canonical rationals is equality
of numerator and denominator. -/
theorem C45_canonical_unique (hl : Canonical l) (hr : Canonical r) (h : value l = value r) : l = r := by
  have h1 := denom_ne hl
  have h2 := denom_ne hr
  unfold value at h
  rw [div_eq_div_iff h1 h2] at h
  have h : l.n.toInt * r.d.toInt = r.n.toInt * l.d.toInt := by exact_mod_cast h
  have d1 : l.d.toInt ∣ r.d.toInt := by
    have : l.d.toInt ∣ l.n.toInt * r.d.toInt := by rw [h]; exact Dvd.intro_left _ rfl
    exact Int.dvd_of_dvd_mul_right_of_gcd_one this (by rw [Int.gcd_comm]; exact hl.2)
  have d2 : r.d.toInt ∣ l.d.toInt := by
    have : r.d.toInt ∣ r.n.toInt * l.d.toInt := by rw [← h]; exact Dvd.intro_left _ rfl
    exact Int.dvd_of_dvd_mul_right_of_gcd_one this (by rw [Int.gcd_comm]; exact hr.2)
  have hd : l.d.toInt = r.d.toInt := Int.dvd_antisymm hl.1.le hr.1.le d1 d2
  have hn : l.n.toInt = r.n.toInt := by
    rw [hd] at h
    exact mul_right_cancel₀ hr.1.ne' h
  obtain ⟨n, d⟩ := l
  obtain ⟨n', d'⟩ := r
  simp only at hd hn
  rw [BitVec.eq_of_toInt_eq hd, BitVec.eq_of_toInt_eq hn]

theorem floor_div (a : Int) {b : Int} (hb : 0 < b) : ⌊(a : ℚ) / (b : ℚ)⌋ = a / b := by
  have := Rat.floor_intCast_div_natCast a b.toNat
  have e : ((b.toNat : Nat) : Int) = b := Int.toNat_of_nonneg hb.le
  rw [e] at this
  rw [← this]
  congr 2
  exact_mod_cast e.symm

/-- C45: `floor` is always defined and exact. -/
theorem C45_floor (hr : Canonical r) : ∃ z, r.floor = some z ∧ z.toInt = ⌊value r⌋ := by
  obtain ⟨q, h, e⟩ := div_pos_some (a := r.n) hr.1
  exact ⟨q, h, by rw [e]; exact (floor_div _ hr.1).symm⟩

/-- C45: `ceil` is exact whenever the sum in it does not overflow. -/
theorem C45_ceil (hr : Canonical r) :
    (∀ z, r.ceil = some z → z.toInt = ⌈value r⌉) ∧
    (r.n.toInt + r.d.toInt ≤ 9223372036854775807 → r.ceil.isSome) := by
  have hd := hr.1
  constructor
  · intro z h
    obtain ⟨a, ha, h⟩ := bind_some_inv h
    obtain ⟨b, hb, h⟩ := bind_some_inv h
    obtain ⟨q, h', e⟩ := div_pos_some (a := b) hr.1
    rw [h] at h'
    simp only [Option.some.injEq] at h'
    subst h'
    rw [e, csub_inv hb, cadd_inv ha, one64]
    symm
    have hq : (0 : ℚ) < r.d.toInt := by exact_mod_cast hd
    rw [Int.ceil_eq_iff]
    unfold value
    have h1 := Int.emod_add_mul_ediv (r.n.toInt + r.d.toInt - 1) r.d.toInt
    have h2 := Int.emod_nonneg (r.n.toInt + r.d.toInt - 1) hd.ne'
    have h3 := Int.emod_lt_of_pos (r.n.toInt + r.d.toInt - 1) hd
    generalize (r.n.toInt + r.d.toInt - 1) / r.d.toInt = q at *
    generalize (r.n.toInt + r.d.toInt - 1) % r.d.toInt = m at *
    have hc : r.d.toInt * q = q * r.d.toInt := mul_comm _ _
    constructor
    · rw [lt_div_iff₀ hq]
      have : (q - 1) * r.d.toInt < r.n.toInt := by
        have : (q - 1) * r.d.toInt = q * r.d.toInt - r.d.toInt := by ring
        omega
      exact_mod_cast this
    · rw [div_le_iff₀ hq]
      have : r.n.toInt ≤ q * r.d.toInt := by omega
      exact_mod_cast this
  · intro hf
    have f1 := fit_toInt r.n
    have f2 := fit_toInt r.d
    unfold Fit at f1 f2
    norm_num at f1 f2
    obtain ⟨e1, v1⟩ := cadd_some (a := r.n) (b := r.d) (by unfold Fit; norm_num; omega)
    obtain ⟨e2, v2⟩ := csub_some (a := r.n + r.d) (b := 1#64) (by
      rw [v1, one64]; unfold Fit; norm_num; omega)
    unfold Rational.ceil
    simp only [e1, e2, Option.bind_eq_bind, Option.bind_some]
    exact Option.isSome_iff_exists.2 ((div_pos_some hd).imp fun _ h => h.1)

/-- C45: `round` rounds to nearest, halves up, whenever `2 n + d` and `2 d` do not overflow. -/
theorem C45_round (hr : Canonical r) :
    (∀ z, r.round = some z → z.toInt = ⌊value r + 1 / 2⌋) ∧
    (Small r → r.round.isSome) := by
  have hd := hr.1
  constructor
  · intro z h
    obtain ⟨a, ha, h⟩ := bind_some_inv h
    obtain ⟨b, hb, h⟩ := bind_some_inv h
    obtain ⟨c, hc, h⟩ := bind_some_inv h
    have hc0 : 0 < c.toInt := by rw [cmul_inv hc, two64]; omega
    obtain ⟨q, h', e⟩ := div_pos_some (a := b) hc0
    rw [h] at h'
    simp only [Option.some.injEq] at h'
    subst h'
    rw [e, ← floor_div _ hc0, cmul_inv hc, cadd_inv hb, cmul_inv ha, two64]
    congr 1
    have := denom_ne hr
    unfold value
    push_cast
    field_simp
  · intro hs
    have b1 := abs_lt.1 hs.1
    have b2 := abs_lt.1 hs.2
    norm_num at b1 b2
    obtain ⟨e1, v1⟩ := cmul_some (a := 2#64) (b := r.n) (by rw [two64]; unfold Fit; norm_num; omega)
    obtain ⟨e2, v2⟩ := cadd_some (a := 2#64 * r.n) (b := r.d) (by
      rw [v1, two64]; unfold Fit; norm_num; omega)
    obtain ⟨e3, v3⟩ := cmul_some (a := 2#64) (b := r.d) (by rw [two64]; unfold Fit; norm_num; omega)
    unfold Rational.round
    simp only [e1, e2, e3, Option.bind_eq_bind, Option.bind_some]
    exact Option.isSome_iff_exists.2 ((div_pos_some (by rw [v3, two64]; omega)).imp fun _ h => h.1)

/-- C45: `frac` is always defined and is the fractional part. -/
theorem C45_frac (hr : Canonical r) : ∃ t, r.frac = some t ∧ Canonical t ∧ value t = Int.fract (value r) := by
  obtain ⟨a, ha, ea⟩ := mod_pos_some (a := r.n) hr.1
  obtain ⟨t, ht, h1, h2⟩ := C45_make a r.d hr.1
  refine ⟨t, ?_, h1, ?_⟩
  · unfold Rational.frac
    simp only [ha, Option.bind_eq_bind, Option.bind_some]
    exact ht
  · rw [h2, ea]
    unfold Int.fract
    have := floor_div r.n.toInt hr.1
    have h3 : ⌊value r⌋ = r.n.toInt / r.d.toInt := this
    rw [h3]
    have hq := denom_ne hr
    unfold value
    rw [Int.emod_def]
    push_cast
    field_simp

/-- C45, negative part: dividing by a negative rational gives a negative denominator in general;
then `<` and `floor` are wrong: 1 / (-2 / 3) is stored as 3 / -2, is not less than 0, and its floor is -1. -/
theorem C45_negative_counterexample :
    ∃ l r t : Rational, Canonical l ∧ Canonical r ∧ l.div r = some t ∧ t.d.toInt = -2 ∧
      value t = -3 / 2 ∧ t.lt (.ofInt 0#64) = some false ∧ value t < 0 ∧
      t.floor = some (-1#64) ∧ ⌊value t⌋ = -2 := by
  have hv : value ⟨3#64, -2#64⟩ = -3 / 2 := by
    unfold value
    rw [show (3#64).toInt = 3 from by decide, show (-2#64).toInt = -2 from by decide]
    norm_num
  refine ⟨⟨1#64, 1#64⟩, ⟨-2#64, 3#64⟩, ⟨3#64, -2#64⟩, ⟨by decide, by decide⟩, ⟨by decide, by decide⟩, ?_,
    by decide, hv, by decide +kernel, by rw [hv]; norm_num, by decide +kernel, by rw [hv]; norm_num [Int.floor_eq_iff]⟩
  unfold Rational.div Rational.mk2 Rational.reduce
  have e1 : cmul 1#64 3#64 = some 3#64 := by decide +kernel
  have e2 : cmul 1#64 (-2#64) = some (-2#64) := by decide +kernel
  simp only [e1, e2, Option.bind_eq_bind, Option.bind_some]
  have g : gcdT 3#64 (-2#64) = some 1#64 := by
    rw [gcdT_unfold, if_neg (by decide), show euclideanMod 3#64 (-2#64) = some 1#64 from by decide +kernel,
      Option.bind_some, gcdT_unfold, if_neg (by decide),
      show euclideanMod (-2#64) 1#64 = some 0#64 from by decide +kernel, Option.bind_some, gcdT_unfold,
      if_pos rfl]
  rw [g]
  decide +kernel

/- A half and a third. -/
example : ∃ l r t : Rational, Rational.mk2 2#64 4#64 = some l ∧ Rational.mk2 1#64 3#64 = some r ∧
    l.add r = some t ∧ value t = 5 / 6 ∧ Canonical t := by
  obtain ⟨l, h1, h2, h3⟩ := C45_make 2#64 4#64 (by decide)
  obtain ⟨r, h4, h5, h6⟩ := C45_make 1#64 3#64 (by decide)
  have hl : l = ⟨1#64, 2#64⟩ := C45_canonical_unique h2 ⟨by decide, by decide⟩ (by
    rw [h3]; unfold value
    rw [show (2#64).toInt = 2 from by decide, show (4#64).toInt = 4 from by decide,
      show (1#64).toInt = 1 from by decide]; norm_num)
  have hr : r = ⟨1#64, 3#64⟩ := C45_canonical_unique h5 ⟨by decide, by decide⟩ (by rw [h6]; rfl)
  have hdef := (C45_defined h2 h5 (by subst hl; constructor <;> decide +kernel)
    (by subst hr; constructor <;> decide +kernel)).1
  obtain ⟨t, ht⟩ := Option.isSome_iff_exists.1 hdef
  obtain ⟨h7, h8⟩ := C45_add h2 h5 ht
  refine ⟨l, r, t, h1, h4, ht, ?_, h7⟩
  rw [h8, h3, h6, show (2#64).toInt = 2 from by decide, show (4#64).toInt = 4 from by decide,
      show (1#64).toInt = 1 from by decide, show (3#64).toInt = 3 from by decide]
  norm_num

/- `floor`, `ceil` and `round` of minus seven halves. -/
example : (Rational.mk (-7#64) 2#64).floor = some (-4#64) ∧ (Rational.mk (-7#64) 2#64).ceil = some (-3#64) ∧
    (Rational.mk (-7#64) 2#64).round = some (-3#64) := by decide +kernel

end Nda
