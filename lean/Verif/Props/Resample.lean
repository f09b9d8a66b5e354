import Verif.Lemmas.Resample
import Verif.Props.Rational
import Mathlib.Algebra.BigOperators.Group.Finset.Basic
import Mathlib.Algebra.BigOperators.Field
import Mathlib.Data.Int.Interval
/-
C46: the kernels built for resampling.
-/
namespace Nda
open Spec
variable {F : Type}

theorem kernel_one (o : FloatOps F) (kernel : F → F) (in_ : Interval) (rate : Rational)
    (buffer : Dense1 F) (hdom : buffer.dom = in_) (x : Int) (p : Rational)
    (hp : kernelPosition x rate = some p)
    (hnz : ∃ i, InInterval in_ i ∧ o.nonZero (weight o kernel rate p i) = true) :
    ∃ st kx, kernelScan o kernel in_ rate (o.min (rate.toFloat o) o.one) buffer x = some st ∧
      st.buffer.dom = in_ ∧ cropKernelAssert st = true ∧
      cropKernel o st = some kx ∧ GoodKernel o in_ (weight o kernel rate p) kx := by
  obtain ⟨i0, hi0, hz0⟩ := hnz
  have hext : 0 ≤ in_.extent := by unfold InInterval at hi0; omega
  obtain ⟨st, h1, h2, h3, h4, h5, h6⟩ := scan_fold o kernel (p.toFloat o) (o.min (rate.toFloat o) o.one)
    (ints in_.min in_.extent) ⟨buffer, in_.max, in_.min, o.zero⟩
    (by intro i hi; rw [hdom]; exact mem_ints.1 hi)
  change st.sum = (List.filter (fun i => o.nonZero (weight o kernel rate p i)) _).foldl
    (fun s i => o.add s (weight o kernel rate p i)) _ at h4
  change st.min = (List.filter (fun i => o.nonZero (weight o kernel rate p i)) _).foldl _ _ at h5
  change st.max = (List.filter (fun i => o.nonZero (weight o kernel rate p i)) _).foldl _ _ at h6
  have h3 : ∀ j, InInterval in_ j → st.buffer.data j = weight o kernel rate p j := by
    intro j hj
    rw [h3 j, if_pos (mem_ints.2 hj)]; rfl
  simp only at h2 h4 h5 h6
  have hmem : ∀ i, i ∈ (ints in_.min in_.extent).filter (fun i => o.nonZero (weight o kernel rate p i)) ↔
      InInterval in_ i ∧ o.nonZero (weight o kernel rate p i) = true := by
    intro i
    rw [List.mem_filter, mem_ints]; rfl
  obtain ⟨m1, m2, m3⟩ := foldl_imin ((ints in_.min in_.extent).filter
    (fun i => o.nonZero (weight o kernel rate p i))) in_.max
  obtain ⟨x1, x2, x3⟩ := foldl_imax ((ints in_.min in_.extent).filter
    (fun i => o.nonZero (weight o kernel rate p i))) in_.min
  rw [← h5] at m1 m2 m3
  rw [← h6] at x1 x2 x3
  have mi0 := m3 i0 ((hmem i0).2 ⟨hi0, hz0⟩)
  have xi0 := x3 i0 ((hmem i0).2 ⟨hi0, hz0⟩)
  have hmin : InInterval in_ st.min ∧ o.nonZero (weight o kernel rate p st.min) = true := by
    rcases m1 with h | h
    · have : st.min = i0 := by
        rw [h, Interval.max_eq] at mi0 ⊢
        unfold InInterval at hi0
        omega
      rw [this]; exact ⟨hi0, hz0⟩
    · exact (hmem _).1 h
  have hmax : InInterval in_ st.max ∧ o.nonZero (weight o kernel rate p st.max) = true := by
    rcases x1 with h | h
    · have : st.max = i0 := by
        rw [h] at xi0 ⊢
        unfold InInterval at hi0
        omega
      rw [this]; exact ⟨hi0, hz0⟩
    · exact (hmem _).1 h
  have hsub : ∀ i, InInterval ⟨st.min, st.max - st.min + 1⟩ i → InInterval in_ i := by
    intro i hi
    have a := hmin.1
    have b := hmax.1
    unfold InInterval at *
    simp only at hi
    omega
  obtain ⟨kx, k1, k2, k3⟩ := set_fold
    (fun i => (st.buffer.get i).bind fun b => some (o.div b st.sum))
    (fun i => o.div (weight o kernel rate p i) st.sum) (ints st.min (st.max - st.min + 1))
    ⟨⟨st.min, st.max - st.min + 1⟩, fun _ => o.zero⟩ (by
      intro i hi
      have hi' := hsub i (mem_ints.1 hi)
      refine ⟨mem_ints.1 hi, ?_⟩
      rw [Dense1.get_some (by rw [h2, hdom]; exact hi'), h3 i hi']
      rfl)
  refine ⟨st, kx, ?_, by rw [h2, hdom], ?_, ?_, ?_⟩
  · unfold kernelScan
    rw [hp, Interval.iterate_eq hext]
    simp only [Option.bind_eq_bind, Option.bind_some]
    exact h1
  · unfold cropKernelAssert
    exact decide_eq_true (by omega)
  · unfold cropKernel
    have : Interval.iterate ⟨st.min, st.max - st.min + 1⟩ = some (ints st.min (st.max - st.min + 1)) :=
      Interval.iterate_eq (v := ⟨st.min, st.max - st.min + 1⟩) (by simp only; omega)
    simp only [this, Option.bind_eq_bind, Option.bind_some]
    rw [← k1]
    congr 1
    funext a i
    simp only [Option.bind_eq_bind]
    cases st.buffer.get i <;> rfl
  · simp only at k2
    unfold GoodKernel
    rw [k2]
    refine ⟨hsub, ?_, hmin.2, ?_, ?_, st.sum, ⟨_, (ints_pairwise _ _).filter _, hmem, h4⟩, ?_⟩
    · unfold InInterval; simp only; omega
    · simp only
      rw [show st.min + (st.max - st.min + 1) - 1 = st.max by omega]
      exact hmax.2
    · intro i hi hz
      have a := m3 i ((hmem i).2 ⟨hi, hz⟩)
      have b := x3 i ((hmem i).2 ⟨hi, hz⟩)
      unfold InInterval
      simp only
      omega
    · intro i hi
      rw [k3 i, if_pos (mem_ints.2 hi)]

/-- C46: if for every output position some kernel value on the input interval is non-zero, then
`build_kernels` makes no access out of bounds (of `buffer`, of the kernel or of the array of kernels),
passes `assert(extent > 0)`, and stores for each output position the kernel values from the first to
the last non-zero one, divided by their sum. -/
theorem C46_kernels (o : FloatOps F) (in_ out : Interval) (rate : Rational) (kernel : F → F)
    (hout : 0 ≤ out.extent)
    (hp : ∀ x, InInterval out x → ∃ p, kernelPosition x rate = some p ∧
      ∃ i, InInterval in_ i ∧ o.nonZero (weight o kernel rate p i) = true) :
    ∃ ks, buildKernels o in_ out rate kernel = some ks ∧ ks.dom = out ∧
      ∀ x p, InInterval out x → kernelPosition x rate = some p →
        GoodKernel o in_ (weight o kernel rate p) (ks.data x) := by
  have key : ∀ (l : List Int), (∀ x ∈ l, InInterval out x) →
      ∀ s : Dense1 F × Dense1 (Dense1 F), s.1.dom = in_ → s.2.dom = out →
      ∃ s', l.foldlM (fun (s : Dense1 F × Dense1 (Dense1 F)) x => do
        let st ← kernelScan o kernel in_ rate (o.min (rate.toFloat o) o.one) s.1 x
        let kx ← cropKernel o st
        let kernels ← s.2.set x kx
        pure (st.buffer, kernels)) s = some s' ∧ s'.2.dom = out ∧
        ∀ x p, kernelPosition x rate = some p → (x ∈ l → GoodKernel o in_ (weight o kernel rate p) (s'.2.data x)) ∧
          (x ∉ l → s'.2.data x = s.2.data x) := by
    intro l
    induction l with
    | nil => intro _ s _ h2; exact ⟨s, rfl, h2, by simp⟩
    | cons x l ih =>
      intro hl s hs1 hs2
      obtain ⟨p, hpos, hnz⟩ := hp x (hl x (by simp))
      obtain ⟨st, kx, e1, e2, _, e3, hg⟩ := kernel_one o kernel in_ rate s.1 hs1 x p hpos hnz
      have e4 := Dense1.set_some (a := s.2) (i := x) (by rw [hs2]; exact hl x (by simp)) kx
      obtain ⟨s', f1, f2, f3⟩ := ih (fun y hy => hl y (by simp [hy])) (st.buffer,
        ⟨s.2.dom, fun j => if j = x then kx else s.2.data j⟩) e2 hs2
      refine ⟨s', ?_, f2, ?_⟩
      · rw [List.foldlM_cons]
        simp only [e1, e3, e4, Option.bind_eq_bind, Option.bind_some, Option.pure_def]
        exact f1
      · intro y q hq
        constructor
        · intro hy
          by_cases hyl : y ∈ l
          · exact (f3 y q hq).1 hyl
          · have : y = x := by rcases List.mem_cons.1 hy with h | h; exact h; exact absurd h hyl
            subst this
            rw [(f3 y q hq).2 hyl]
            simp only [if_true]
            rw [hpos] at hq
            simp only [Option.some.injEq] at hq
            rw [← hq]; exact hg
        · intro hy
          rw [(f3 y q hq).2 (by intro h; exact hy (by simp [h]))]
          simp only
          rw [if_neg (by rintro rfl; simp at hy)]
  obtain ⟨s', h1, h2, h3⟩ := key (ints out.min out.extent) (fun x hx => mem_ints.1 hx)
    (⟨in_, fun _ => o.zero⟩, ⟨out, fun _ => ⟨⟨0, 0⟩, fun _ => o.zero⟩⟩) rfl rfl
  refine ⟨s'.2, ?_, h2, fun x p hx hpx => (h3 x p hpx).1 (mem_ints.2 hx)⟩
  unfold buildKernels
  simp only [Interval.iterate_eq hout, Option.bind_eq_bind, Option.bind_some]
  simp only [Option.bind_eq_bind] at h1
  rw [h1]
  rfl

/-- Exact arithmetic in a field. -/
def fieldOps (K : Type) [Field K] [LinearOrder K] : FloatOps K where
  zero := 0
  one := 1
  ofIndex := fun i => (i : K)
  add := (· + ·)
  sub := (· - ·)
  mul := (· * ·)
  div := (· / ·)
  min := fun a b => if b < a then b else a
  nonZero := fun a => decide (a ≠ 0)

theorem foldl_sum {K : Type} [Field K] (w : Int → K) (l : List Int) :
    ∀ a, l.foldl (fun s i => s + w i) a = a + (l.map w).sum := by
  induction l with
  | nil => simp
  | cons x l ih => intro a; rw [List.foldl_cons, ih, List.map_cons, List.sum_cons, add_assoc]

/-- C46: in exact arithmetic the stored values add up to one (if the kernel values do not add up to
zero). -/
theorem C46_sum_one {K : Type} [Field K] [LinearOrder K] (in_ : Interval) (w : Int → K) (kx : Dense1 K)
    (h : GoodKernel (fieldOps K) in_ w kx)
    (hs : ∑ i ∈ Finset.Ico in_.min (in_.min + in_.extent), w i ≠ 0) :
    ∑ i ∈ Finset.Ico kx.dom.min (kx.dom.min + kx.dom.extent), kx.data i = 1 := by
  obtain ⟨h1, h2, h3, h4, h5, s, ⟨l, hp, hl, rfl⟩, hdata⟩ := h
  have hsum : l.foldl (fun s i => (fieldOps K).add s (w i)) (fieldOps K).zero =
      ∑ i ∈ Finset.Ico in_.min (in_.min + in_.extent), w i := by
    show l.foldl (fun s i => s + w i) 0 = _
    rw [foldl_sum, zero_add]
    have hnd : l.Nodup := hp.imp fun h => ne_of_lt h
    rw [← List.sum_toFinset _ hnd]
    refine Finset.sum_subset (fun i hi => ?_) (fun i hi hn => ?_)
    · rw [List.mem_toFinset, hl] at hi
      exact Finset.mem_Ico.2 hi.1
    · rw [List.mem_toFinset, hl] at hn
      by_contra hw
      exact hn ⟨Finset.mem_Ico.1 hi, decide_eq_true hw⟩
  have hsub : ∑ i ∈ Finset.Ico kx.dom.min (kx.dom.min + kx.dom.extent), w i =
      ∑ i ∈ Finset.Ico in_.min (in_.min + in_.extent), w i := by
    refine Finset.sum_subset (fun i hi => ?_) (fun i hi hn => ?_)
    · exact Finset.mem_Ico.2 (h1 i (Finset.mem_Ico.1 hi))
    · by_contra hw
      exact hn (Finset.mem_Ico.2 (h5 i (Finset.mem_Ico.1 hi) (decide_eq_true hw)))
  rw [← hsum] at hs hsub
  generalize l.foldl (fun s i => (fieldOps K).add s (w i)) (fieldOps K).zero = s at hdata hs hsub
  rw [Finset.sum_congr rfl fun i hi => hdata i (Finset.mem_Ico.1 hi)]
  show ∑ i ∈ _, w i / s = 1
  rw [← Finset.sum_div, hsub, div_self hs]

theorem make_bounds {n d : BitVec 64} {r : Rational} (hd : 0 < d.toInt) (h : Rational.mk2 n d = some r) :
    |r.n.toInt| ≤ |n.toInt| ∧ r.d.toInt ≤ d.toInt := by
  obtain ⟨g, hg, eg⟩ := C45_gcd n d hd
  have hgpos : 0 < g.toInt := by
    rw [eg]
    have := Int.gcd_pos_of_ne_zero_right n.toInt (show d.toInt ≠ 0 by omega)
    exact_mod_cast this
  obtain ⟨n', hn, en⟩ := sdiv_exact (a := n) hgpos (by rw [eg]; exact Int.gcd_dvd_left ..)
  obtain ⟨d', hd', ed⟩ := sdiv_exact (a := d) hgpos (by rw [eg]; exact Int.gcd_dvd_right ..)
  unfold Rational.mk2 Rational.reduce at h
  simp only [hg, hn, hd', Option.bind_eq_bind, Option.bind_some, Option.pure_def, Option.some.injEq] at h
  subst h
  simp only
  constructor
  · rw [← en, abs_mul, abs_of_pos hgpos]
    exact le_mul_of_one_le_right (abs_nonneg _) hgpos
  · have h0 : 0 ≤ d'.toInt := by
      by_contra hc
      have : d'.toInt * g.toInt ≤ 0 := mul_nonpos_of_nonpos_of_nonneg (by omega) (by omega)
      omega
    rw [← ed]
    exact le_mul_of_one_le_right h0 hgpos

/-- C46: the position sampled for output `x` is (x + 1/2) / rate - 1/2, and is computed without
overflow if the numbers involved fit in 30 bits. -/
theorem C46_position (x : Int) (rate : Rational) (hr : Canonical rate) (hp : 0 < value rate)
    (hx : |x| < 2 ^ 29) (hn : rate.n.toInt < 2 ^ 29) (hd : rate.d.toInt < 2 ^ 29) :
    ∃ p, kernelPosition x rate = some p ∧ Canonical p ∧
      value p = ((x : ℚ) + 1 / 2) / value rate - 1 / 2 := by
  have hn0 := (value_pos_iff hr).1 hp
  have hd0 := hr.1
  have hx := abs_lt.1 hx
  norm_num at hx hn hd
  obtain ⟨half, e0, c0, v0⟩ := C45_make 1#64 2#64 (by decide)
  have hhalf : half = ⟨1#64, 2#64⟩ := C45_canonical_unique c0 ⟨by decide, by decide⟩ (by rw [v0]; rfl)
  subst hhalf
  have hxi : (BitVec.ofInt 64 x).toInt = x := by
    rw [BitVec.toInt_ofInt, Int.bmod_eq_of_le] <;> norm_num <;> omega
  have hov : (1#64).toInt = 1 := by decide
  have htv : (2#64).toInt = 2 := by decide
  have hfit : ∀ z : Int, -9000000000000000000 ≤ z → z ≤ 9000000000000000000 → Fit 64 z := by
    intro z h1 h2; unfold Fit; norm_num; omega
  -- x + half
  obtain ⟨m1, w1⟩ := cmul_some (a := BitVec.ofInt 64 x) (b := 2#64) (by rw [hxi, htv]; apply hfit <;> omega)
  obtain ⟨m2, w2⟩ := cmul_some (a := 1#64) (b := 1#64) (by constructor <;> decide +kernel)
  rw [hxi, htv] at w1
  rw [hov] at w2
  obtain ⟨m3, w3⟩ := cadd_some (a := BitVec.ofInt 64 x * 2#64) (b := 1#64 * 1#64) (by
    rw [w1, w2]; apply hfit <;> omega)
  rw [w1, w2] at w3
  obtain ⟨m4, w4⟩ := cmul_some (a := 1#64) (b := 2#64) (by constructor <;> decide +kernel)
  rw [hov, htv] at w4
  obtain ⟨a, ea', _, _⟩ := C45_make (BitVec.ofInt 64 x * 2#64 + 1#64 * 1#64) (1#64 * 2#64) (by rw [w4]; decide)
  obtain ⟨b1, b2⟩ := make_bounds (by rw [w4]; decide) ea'
  rw [w3] at b1
  rw [w4] at b2
  have ea : Rational.scalarAdd (BitVec.ofInt 64 x) ⟨1#64, 2#64⟩ = some a := by
    unfold Rational.scalarAdd Rational.add Rational.ofInt
    simp only [m1, m2, m3, m4, Option.bind_eq_bind, Option.bind_some]
    exact ea'
  obtain ⟨ca, va⟩ := (C45_scalar (BitVec.ofInt 64 x) c0).1 a ea
  rw [hxi, v0, hov, htv] at va
  have b1 : -2 ^ 30 < a.n.toInt ∧ a.n.toInt < 2 ^ 30 := by
    rw [← abs_lt]
    refine lt_of_le_of_lt b1 ?_
    rw [abs_lt]; norm_num; omega
  norm_num at b1
  -- / rate
  have ha0 := ca.1
  have k1 : |a.n.toInt * rate.d.toInt| < 2 ^ 59 := by
    rw [abs_mul, abs_of_pos hd0]
    have h1 : |a.n.toInt| < 2 ^ 30 := by rw [abs_lt]; norm_num; omega
    calc |a.n.toInt| * rate.d.toInt ≤ |a.n.toInt| * 2 ^ 29 :=
          mul_le_mul_of_nonneg_left (by norm_num; omega) (abs_nonneg _)
      _ < 2 ^ 30 * 2 ^ 29 := mul_lt_mul_of_pos_right h1 (by norm_num)
      _ = 2 ^ 59 := by norm_num
  have k1' := abs_lt.1 k1
  norm_num at k1'
  have k2 : a.d.toInt * rate.n.toInt ≤ 2 * rate.n.toInt := mul_le_mul_of_nonneg_right b2 hn0.le
  have k3 : 0 < a.d.toInt * rate.n.toInt := mul_pos ha0 hn0
  obtain ⟨m5, w5⟩ := cmul_some (a := a.n) (b := rate.d) (by apply hfit <;> omega)
  obtain ⟨m6, w6⟩ := cmul_some (a := a.d) (b := rate.n) (by apply hfit <;> omega)
  obtain ⟨b, eb', _, _⟩ := C45_make (a.n * rate.d) (a.d * rate.n) (by rw [w6]; exact k3)
  obtain ⟨b3, b4⟩ := make_bounds (by rw [w6]; exact k3) eb'
  rw [w5] at b3
  rw [w6] at b4
  have eb : a.div rate = some b := by
    unfold Rational.div
    simp only [m5, m6, Option.bind_eq_bind, Option.bind_some]
    exact eb'
  obtain ⟨cb, vb⟩ := C45_div ca hr hp eb
  have b3 := abs_lt.1 (lt_of_le_of_lt b3 k1)
  norm_num at b3
  -- - half
  have hb0 := cb.1
  obtain ⟨m7, w7⟩ := cmul_some (a := b.n) (b := 2#64) (by rw [htv]; apply hfit <;> omega)
  obtain ⟨m8, w8⟩ := cmul_some (a := 1#64) (b := b.d) (by rw [hov]; apply hfit <;> omega)
  rw [htv] at w7
  rw [hov] at w8
  obtain ⟨m9, w9⟩ := csub_some (a := b.n * 2#64) (b := 1#64 * b.d) (by rw [w7, w8]; apply hfit <;> omega)
  obtain ⟨m10, w10⟩ := cmul_some (a := b.d) (b := 2#64) (by rw [htv]; apply hfit <;> omega)
  rw [htv] at w10
  obtain ⟨p, ep', _, _⟩ := C45_make (b.n * 2#64 - 1#64 * b.d) (b.d * 2#64) (by rw [w10]; omega)
  have ep : b.sub ⟨1#64, 2#64⟩ = some p := by
    unfold Rational.sub
    simp only [m7, m8, m9, m10, Option.bind_eq_bind, Option.bind_some]
    exact ep'
  obtain ⟨cp, vp⟩ := C45_sub cb c0 ep
  refine ⟨p, ?_, cp, ?_⟩
  · unfold kernelPosition
    simp only [e0, ea, eb, ep, Option.bind_eq_bind, Option.bind_some]
  · rw [vp, vb, va, v0, hov, htv]
    norm_num

/-- C46, negative part: where all kernel values on an input interval of at least two positions are
zero, `assert(extent > 0)` fails; with at least three positions the loop over the negative extent that
follows without the assertion does not end. -/
theorem C46_zero_kernel_counterexample (o : FloatOps F) (kernel : F → F) (in_ : Interval) (rate : Rational)
    (buffer : Dense1 F) (hdom : buffer.dom = in_) (x : Int) (p : Rational)
    (hp : kernelPosition x rate = some p) (hext : 2 ≤ in_.extent)
    (hz : ∀ i, InInterval in_ i → o.nonZero (weight o kernel rate p i) = false) :
    ∃ st, kernelScan o kernel in_ rate (o.min (rate.toFloat o) o.one) buffer x = some st ∧
      cropKernelAssert st = false ∧ (3 ≤ in_.extent → cropKernel o st = none) := by
  obtain ⟨st, h1, h2, h3, h4, h5, h6⟩ := scan_fold o kernel (p.toFloat o) (o.min (rate.toFloat o) o.one)
    (ints in_.min in_.extent) ⟨buffer, in_.max, in_.min, o.zero⟩
    (by intro i hi; rw [hdom]; exact mem_ints.1 hi)
  have hnil : (ints in_.min in_.extent).filter (fun i => o.nonZero (weight o kernel rate p i)) = [] := by
    rw [List.filter_eq_nil_iff]
    intro i hi
    rw [hz i (mem_ints.1 hi)]; simp
  change st.min = (List.filter (fun i => o.nonZero (weight o kernel rate p i)) _).foldl _ _ at h5
  change st.max = (List.filter (fun i => o.nonZero (weight o kernel rate p i)) _).foldl _ _ at h6
  rw [hnil] at h5 h6
  simp only [List.foldl_nil] at h5 h6
  rw [Interval.max_eq] at h5
  refine ⟨st, ?_, ?_, ?_⟩
  · unfold kernelScan
    rw [hp, Interval.iterate_eq (by omega)]
    simp only [Option.bind_eq_bind, Option.bind_some]
    exact h1
  · unfold cropKernelAssert
    exact decide_eq_false (by omega)
  · intro h
    have : Interval.iterate ⟨st.min, st.max - st.min + 1⟩ = none := by
      cases hi : Interval.iterate ⟨st.min, st.max - st.min + 1⟩ with
      | none => rfl
      | some l =>
        unfold Interval.iterate at hi
        rw [rangeFor_iff] at hi
        have := hi.1
        simp only [Interval.begin_, Interval.end_, Interval.max] at this
        omega
    unfold cropKernel
    simp only [this, Option.bind_eq_bind, Option.bind_none]

/- Halving a row of four with the linear kernel: all hypotheses hold. -/
example : ∃ (rate : Rational) (ks : Dense1 (Dense1 ℚ)), value rate = 1 / 2 ∧
    buildKernels (fieldOps ℚ) ⟨0, 4⟩ ⟨0, 2⟩ rate (fun s => max 0 (1 - |s|)) = some ks ∧
    ∀ x, InInterval ⟨0, 2⟩ x → 0 < (ks.data x).dom.extent ∧
      ∀ i, InInterval (ks.data x).dom i → 0 ≤ i ∧ i < 4 := by
  have hr : Canonical ⟨1#64, 2#64⟩ := ⟨by decide, by decide⟩
  have hv : value ⟨1#64, 2#64⟩ = 1 / 2 := by
    unfold value; rw [one64, two64]; norm_num
  have hp : ∀ x, InInterval ⟨0, 2⟩ x → ∃ p, kernelPosition x ⟨1#64, 2#64⟩ = some p ∧
      value p = ((x : ℚ) + 1 / 2) / (1 / 2) - 1 / 2 := by
    intro x hx
    unfold InInterval at hx
    simp only at hx
    obtain ⟨p, h1, _, h2⟩ := C46_position x ⟨1#64, 2#64⟩ hr (by rw [hv]; norm_num)
      (by rw [abs_lt]; norm_num; omega) (by decide) (by decide)
    exact ⟨p, h1, by rw [h2, hv]⟩
  obtain ⟨ks, h1, h2, h3⟩ := C46_kernels (fieldOps ℚ) ⟨0, 4⟩ ⟨0, 2⟩ ⟨1#64, 2#64⟩ (fun s => max 0 (1 - |s|))
    (by decide) (by
      intro x hx
      obtain ⟨p, hp1, hp2⟩ := hp x hx
      refine ⟨p, hp1, 2 * x, ?_, ?_⟩
      · unfold InInterval at *; simp only at *; omega
      · unfold weight
        apply decide_eq_true
        show max 0 (1 - |(((2 * x : Int) : ℚ) - value p) *
          (if 1 < value ⟨1#64, 2#64⟩ then 1 else value ⟨1#64, 2#64⟩)|) ≠ 0
        rw [hp2, hv, if_neg (by norm_num)]
        have : (((2 * x : Int) : ℚ) - (((x : ℚ) + 1 / 2) / (1 / 2) - 1 / 2)) * (1 / 2) = -(1 / 4) := by
          push_cast; ring
        rw [this, abs_neg, abs_of_pos (by norm_num)]
        norm_num)
  refine ⟨⟨1#64, 2#64⟩, ks, hv, h1, ?_⟩
  intro x hx
  obtain ⟨p, hp1, _⟩ := hp x hx
  obtain ⟨g1, g2, _⟩ := h3 x p hx hp1
  unfold InInterval at *
  simp only at g1 g2
  exact ⟨by omega, fun i hi => by have := g1 i hi; omega⟩

end Nda
