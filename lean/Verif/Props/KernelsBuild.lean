import Verif.Props.Kernels
import Verif.Props.ResampleImage
import Verif.Lemmas.KernelSums
/-
C62: resampling with the kernels of the library, in exact arithmetic.
-/
namespace Nda
open Spec Kernel

section
variable {K : Type} [Field K] [LinearOrder K] [IsStrictOrderedRing K]

/-- The kernels that are made of polynomials. -/
def PolynomialKernel (k : K → K) : Prop :=
  k = box ∨ k = linear ∨ k = interpolatingQuadratic ∨ k = interpolatingCubic ∨ k = quadraticBspline ∨
    k = cubicBspline

/-- A kernel that is nowhere negative. -/
theorem lobes_of_nonneg {k : K → K} (h1 : Symmetric k) (h2 : ∀ s, 0 ≤ k s) (h3 : ∀ s, 2 ≤ |s| → k s = 0)
    (h4 : ∀ s, |s| ≤ 1 / 2 → 0 < k s) : Lobes k 0 where
  even := h1
  centre := fun s hs => by rw [mul_zero]; exact h4 s hs
  main := fun s _ => h2 s
  below := fun s => by rw [neg_zero]; exact h2 s
  far := h3
  pair := fun s u _ _ _ _ => add_nonneg (h2 s) (h2 (s + u))
  nonneg := le_rfl

theorem lobes_quadratic : Lobes (interpolatingQuadratic : K → K) (1 / 16) := by
  have mid : ∀ s : K, 1 / 2 ≤ |s| → |s| ≤ 3 / 2 → interpolatingQuadratic s = (|s| - 1) * (|s| - 3 / 2) := by
    intro s h1 h2
    unfold interpolatingQuadratic
    rw [quadratic_mid h1 h2, ← sq_abs]
    ring
  have near : ∀ s : K, |s| < 1 / 2 → 1 / 2 ≤ interpolatingQuadratic s := by
    intro s hs
    unfold interpolatingQuadratic
    rw [quadratic_near hs, ← sq_abs]
    nlinarith [abs_nonneg s]
  have half : ∀ s : K, |s| ≤ 1 / 2 → 1 / 2 ≤ interpolatingQuadratic s := by
    intro s hs
    rcases hs.lt_or_eq with h | h
    · exact near s h
    · rw [mid s h.ge (by linarith), h]; norm_num
  have main : ∀ s : K, |s| ≤ 1 → 0 ≤ interpolatingQuadratic s := by
    intro s hs
    rcases le_or_gt |s| (1 / 2) with h | h
    · exact le_trans (by norm_num) (half s h)
    · rw [mid s h.le (by linarith)]
      nlinarith
  refine ⟨C62_interpolating_quadratic.1, fun s hs => ?_, main, fun s => ?_,
    fun s hs => C62_interpolating_quadratic.2.1 s (by linarith), fun s u h1 h2 h3 h4 => ?_, by norm_num⟩
  · have := half s hs
    linarith
  · rcases le_or_gt |s| 1 with h | h
    · have := main s h
      linarith
    · rcases le_or_gt |s| (3 / 2) with h' | h'
      · rw [mid s (by linarith) h']
        nlinarith [sq_nonneg (|s| - 5 / 4)]
      · rw [C62_interpolating_quadratic.2.1 s h'.le]; norm_num
  · rw [C62_interpolating_quadratic.2.1 (s + u) (by rw [abs_of_nonneg] <;> linarith), add_zero]
    exact main s (by rw [abs_of_nonneg] <;> linarith)

theorem lobes_cubic : Lobes (interpolatingCubic : K → K) (2 / 27) := by
  have near : ∀ s : K, |s| ≤ 1 → interpolatingCubic s = (1 - |s|) * (1 + |s| - 3 / 2 * |s| ^ 2) := by
    intro s h
    unfold interpolatingCubic
    rw [cubic_near h]
    ring
  have mid : ∀ s : K, 1 ≤ |s| → |s| ≤ 2 → interpolatingCubic s = -(1 / 2) * (|s| - 1) * (2 - |s|) ^ 2 := by
    intro s h1 h2
    unfold interpolatingCubic
    rw [cubic_mid h1 h2]
    ring
  have main : ∀ s : K, |s| ≤ 1 → 0 ≤ interpolatingCubic s := by
    intro s hs
    rw [near s hs]
    have h0 := abs_nonneg s
    refine mul_nonneg (by linarith) ?_
    nlinarith
  refine ⟨C62_interpolating_cubic.1, fun s hs => ?_, main, fun s => ?_, C62_interpolating_cubic.2.1,
    fun s u h1 h2 h3 h4 => ?_, by norm_num⟩
  · rw [near s (by linarith)]
    have h0 := abs_nonneg s
    nlinarith [mul_nonneg h0 (sub_nonneg.2 hs), mul_nonneg (mul_nonneg h0 h0) h0]
  · rcases le_or_gt |s| 1 with h | h
    · have := main s h
      linarith
    · rcases le_or_gt |s| 2 with h' | h'
      · rw [mid s h.le h']
        have a : 0 ≤ (|s| - 4 / 3) ^ 2 * (7 / 3 - |s|) := mul_nonneg (sq_nonneg _) (by linarith)
        nlinarith
      · rw [C62_interpolating_cubic.2.1 s h'.le]; norm_num
  · have a1 : |s| = s := abs_of_nonneg (by linarith)
    have a2 : |s + u| = s + u := abs_of_nonneg (by linarith)
    rw [near s (by rw [a1]; exact h2), mid (s + u) (by rw [a2]; linarith) (by rw [a2]; exact h4), a1, a2]
    have hd : 2 - (s + u) ≤ 1 - s := by linarith
    have hd0 : 0 ≤ 2 - (s + u) := by linarith
    have hsq : (2 - (s + u)) ^ 2 ≤ (1 - s) ^ 2 := by gcongr
    have hx : (s + u - 1) * (2 - (s + u)) ^ 2 ≤ 1 * (1 - s) ^ 2 :=
      mul_le_mul (by linarith) hsq (sq_nonneg _) (by norm_num)
    have hq : (1 - s) / 2 ≤ 1 + s - 3 / 2 * s ^ 2 := by nlinarith
    have := mul_le_mul_of_nonneg_left hq (show 0 ≤ 1 - s by linarith)
    nlinarith

/-- Each of them has a sum that is positive when it should be. -/
theorem PolynomialKernel.lobes {k : K → K} (h : PolynomialKernel k) : ∃ c, Lobes k c := by
  rcases h with rfl | rfl | rfl | rfl | rfl | rfl
  · refine ⟨0, lobes_of_nonneg C62_box.1 (fun s => ?_) (fun s hs => C62_box.2.1 s (by linarith)) (fun s hs => ?_)⟩
    · unfold box; split <;> norm_num
    · unfold box; rw [if_pos hs]; norm_num
  · exact ⟨0, lobes_of_nonneg C62_linear.1 (fun s => (C62_linear.2.2.2.1 s).1)
      (fun s hs => C62_linear.2.1 s (by linarith)) (fun s hs => C62_linear.2.2.1 s (by linarith))⟩
  · exact ⟨_, lobes_quadratic⟩
  · exact ⟨_, lobes_cubic⟩
  · refine ⟨0, lobes_of_nonneg C62_quadratic_bspline.1 (fun s => ?_)
      (fun s hs => C62_quadratic_bspline.2.1 s (by linarith)) (fun s hs => C62_quadratic_bspline.2.2.1 s (by linarith))⟩
    rcases lt_or_ge |s| (3 / 2) with h | h
    · exact (C62_quadratic_bspline.2.2.1 s h).le
    · rw [C62_quadratic_bspline.2.1 s h]
  · refine ⟨0, lobes_of_nonneg C62_cubic_bspline.1 (fun s => ?_) C62_cubic_bspline.2.1
      (fun s hs => C62_cubic_bspline.2.2.1 s (by linarith))⟩
    rcases lt_or_ge |s| 2 with h | h
    · exact (C62_cubic_bspline.2.2.1 s h).le
    · rw [C62_cubic_bspline.2.1 s h]

/-- Input coordinates times `rate` are output coordinates (resample.h:192-193): the pixels `out`, each of
which covers the coordinates from its index to the next, lie in the image of the pixels `in_`. -/
def MapsInto (in_ out : Interval) (rate : ℚ) : Prop :=
  rate * in_.min ≤ out.min ∧ (out.min : ℚ) + out.extent ≤ rate * ((in_.min : ℚ) + in_.extent)

theorem value_cast {K : Type} [Field K] [CharZero K] (r : Rational) : ((value r : ℚ) : K) = (r.n.toInt : K) / (r.d.toInt : K) := by
  unfold value
  push_cast
  rfl

/-- The pixel nearest to the position of an output pixel is one of the input, and the kernel is stretched, not
shrunk. -/
theorem nearest_pixel (k : K → K) (in_ out : Interval)
    (rate : Rational) (hp : 0 < value rate) (hm : MapsInto in_ out (value rate)) (x : Int)
    (hx : InInterval out x) (p : Rational) (hv : value p = ((x : ℚ) + 1 / 2) / value rate - 1 / 2) :
    in_.min ≤ round (value p) ∧ round (value p) < in_.min + in_.extent ∧
    |((round (value p) : ℤ) : K) - ((value p : ℚ) : K)| ≤ 1 / 2 ∧
    ∃ t : K, 0 < t ∧ t ≤ 1 ∧ ∀ i, weight (fieldOps K) k rate p i = k (((i : K) - ((value p : ℚ) : K)) * t) := by
  obtain ⟨m1, m2⟩ := hm
  obtain ⟨x1, x2⟩ := hx
  have x1 : (out.min : ℚ) ≤ x := by exact_mod_cast x1
  have x2 : (x : ℚ) + 1 ≤ out.min + out.extent := by exact_mod_cast x2
  -- the position is within half a pixel of the input
  have p1 : (in_.min : ℚ) - 1 / 2 < value p := by
    rw [hv]
    have : (in_.min : ℚ) < ((x : ℚ) + 1 / 2) / value rate := by
      rw [lt_div_iff₀ hp]
      linarith
    linarith
  have p2 : value p < (in_.min : ℚ) + in_.extent - 1 / 2 := by
    rw [hv]
    have : ((x : ℚ) + 1 / 2) / value rate < (in_.min : ℚ) + in_.extent := by
      rw [div_lt_iff₀ hp]
      linarith
    linarith
  have hround := abs_le.1 (abs_sub_round (value p))
  have i1 : in_.min ≤ round (value p) := by
    have : ((in_.min - 1 : ℤ) : ℚ) < (round (value p) : ℤ) := by push_cast; linarith [hround.2]
    have : in_.min - 1 < round (value p) := by exact_mod_cast this
    omega
  have i2 : round (value p) < in_.min + in_.extent := by
    have : ((round (value p) : ℤ) : ℚ) < ((in_.min + in_.extent : ℤ) : ℚ) := by push_cast; linarith [hround.1]
    exact_mod_cast this
  have hpos : |((round (value p) : ℤ) : K) - ((value p : ℚ) : K)| ≤ 1 / 2 := by
    have h := abs_sub_round (value p)
    rw [abs_sub_comm] at h
    have h' : (((|((round (value p) : ℤ) : ℚ) - value p|) : ℚ) : K) ≤ ((1 / 2 : ℚ) : K) := by exact_mod_cast h
    push_cast at h'
    exact h'
  have ht : ∃ t : K, 0 < t ∧ t ≤ 1 ∧ ∀ i, weight (fieldOps K) k rate p i = k (((i : K) - ((value p : ℚ) : K)) * t) := by
    refine ⟨(fieldOps K).min ((rate.n.toInt : K) / (rate.d.toInt : K)) 1, ?_, ?_, fun i => ?_⟩
    · have : (0 : K) < ((value rate : ℚ) : K) := by exact_mod_cast hp
      rw [value_cast] at this
      show 0 < (if (1 : K) < (rate.n.toInt : K) / (rate.d.toInt : K) then (1 : K) else
        (rate.n.toInt : K) / (rate.d.toInt : K))
      split
      · norm_num
      · exact this
    · show (if (1 : K) < _ then (1 : K) else _) ≤ 1
      split <;> rename_i h
      · exact le_rfl
      · exact not_lt.1 h
    · rw [value_cast]; rfl
  exact ⟨i1, i2, hpos, ht⟩

/-- C62: for every output pixel in the image of the input, however large or small the rate, the values of the
kernels at the input pixels have a positive sum (the assertion of resample.h:146). -/
theorem C62_sum_positive [FloorRing K] {k : K → K} (hk : PolynomialKernel k) (in_ out : Interval)
    (rate : Rational) (hr : Canonical rate) (hp : 0 < value rate) (hm : MapsInto in_ out (value rate)) (x : Int)
    (hx : InInterval out x) (p : Rational) (hv : value p = ((x : ℚ) + 1 / 2) / value rate - 1 / 2) :
    0 < ∑ i ∈ Finset.Ico in_.min (in_.min + in_.extent), weight (fieldOps K) k rate p i := by
  obtain ⟨c, hl⟩ := hk.lobes
  obtain ⟨i1, i2, hpos, t, t0, t1, hw⟩ := nearest_pixel k in_ out rate hp hm x hx p hv
  rw [Finset.sum_congr rfl fun i _ => hw i]
  exact hl.sum_pos t0 t1 i1 i2 hpos

/-- What `build_kernels` does if the sums are positive. -/
theorem build_of_positive (k : K → K) (in_ out : Interval) (rate : Rational) (hout : 0 ≤ out.extent)
    (pos : ∀ x, InInterval out x → ∃ p, kernelPosition x rate = some p ∧
      0 < ∑ i ∈ Finset.Ico in_.min (in_.min + in_.extent), weight (fieldOps K) k rate p i) :
    (∃ ks, buildKernels (fieldOps K) in_ out rate k = some ks ∧ ks.dom = out ∧ ∀ x, InInterval out x →
      (∀ i, InInterval (ks.data x).dom i → InInterval in_ i) ∧
      ∑ i ∈ Finset.Ico (ks.data x).dom.min ((ks.data x).dom.min + (ks.data x).dom.extent), (ks.data x).data i = 1) ∧
    ∀ (buffer : Dense1 K), buffer.dom = in_ → ∀ x, InInterval out x →
      ∃ st, kernelScan (fieldOps K) k in_ rate ((fieldOps K).min (rate.toFloat (fieldOps K)) (fieldOps K).one)
        buffer x = some st ∧ cropKernelAssert st = true ∧ 0 < st.sum := by
  have cover : ∀ x, InInterval out x → ∃ p, kernelPosition x rate = some p ∧
      ∃ i, InInterval in_ i ∧ (fieldOps K).nonZero (weight (fieldOps K) k rate p i) = true := by
    intro x h
    obtain ⟨p, e, s⟩ := pos x h
    obtain ⟨i, hi, hw⟩ := Finset.exists_ne_zero_of_sum_ne_zero s.ne'
    exact ⟨p, e, i, Finset.mem_Ico.1 hi, decide_eq_true hw⟩
  constructor
  · obtain ⟨ks, h1, h2, h3⟩ := C46_kernels (fieldOps K) in_ out rate k hout cover
    refine ⟨ks, h1, h2, fun x h => ?_⟩
    obtain ⟨p, e, s⟩ := pos x h
    have g := h3 x p h e
    exact ⟨g.1, C46_sum_one _ _ _ g s.ne'⟩
  · intro buffer hb x h
    obtain ⟨p, e, s⟩ := pos x h
    obtain ⟨p', e', i0, hi0, hw0⟩ := cover x h
    obtain rfl : p = p' := Option.some.inj (e.symm.trans e')
    obtain ⟨st, kx, h1, -, h3, -⟩ := kernel_one (fieldOps K) k in_ rate buffer hb x p e ⟨i0, hi0, hw0⟩
    refine ⟨st, h1, h3, ?_⟩
    have hext : 0 ≤ in_.extent := by unfold InInterval at hi0; omega
    obtain ⟨st', f1, f2, f3, f4, -⟩ := scan_fold (fieldOps K) k (p.toFloat (fieldOps K))
      ((fieldOps K).min (rate.toFloat (fieldOps K)) (fieldOps K).one)
      (ints in_.min in_.extent) ⟨buffer, in_.max, in_.min, (fieldOps K).zero⟩
      (by intro i hi; rw [hb]; exact mem_ints.1 hi)
    obtain rfl : st = st' := by
      unfold kernelScan at h1
      rw [e, Interval.iterate_eq hext] at h1
      simp only [Option.bind_eq_bind, Option.bind_some] at h1
      exact Option.some.inj (h1.symm.trans f1)
    change st.sum = (List.filter (fun i => decide (weight (fieldOps K) k rate p i ≠ 0)) (ints in_.min in_.extent)).foldl
      (fun s i => s + weight (fieldOps K) k rate p i) 0 at f4
    rw [f4, foldl_sum, zero_add]
    have hnd : (List.filter (fun i => decide (weight (fieldOps K) k rate p i ≠ 0))
        (ints in_.min in_.extent)).Nodup := ((ints_pairwise _ _).imp fun h => ne_of_lt h).filter _
    rw [← List.sum_toFinset _ hnd]
    refine lt_of_lt_of_eq s ?_
    symm
    refine Finset.sum_subset (fun i hi => ?_) (fun i hi hn => ?_)
    · rw [List.mem_toFinset, List.mem_filter, mem_ints] at hi
      exact Finset.mem_Ico.2 hi.1
    · rw [List.mem_toFinset, List.mem_filter, mem_ints] at hn
      by_contra hw
      exact hn ⟨Finset.mem_Ico.1 hi, decide_eq_true hw⟩

/-- C62: `build_kernels` with any of these kernels, for output pixels in the image of the input: both
assertions hold for every output pixel, and the stored values, which lie in the input, add up to one. -/
theorem C62_build [FloorRing K] {k : K → K} (hk : PolynomialKernel k) (in_ out : Interval) (rate : Rational)
    (hr : Canonical rate) (hp : 0 < value rate) (hm : MapsInto in_ out (value rate)) (hout : 0 ≤ out.extent)
    (hx : ∀ x, InInterval out x → |x| < 2 ^ 29) (hn : rate.n.toInt < 2 ^ 29) (hd : rate.d.toInt < 2 ^ 29) :
    (∃ ks, buildKernels (fieldOps K) in_ out rate k = some ks ∧ ks.dom = out ∧ ∀ x, InInterval out x →
      (∀ i, InInterval (ks.data x).dom i → InInterval in_ i) ∧
      ∑ i ∈ Finset.Ico (ks.data x).dom.min ((ks.data x).dom.min + (ks.data x).dom.extent), (ks.data x).data i = 1) ∧
    ∀ (buffer : Dense1 K), buffer.dom = in_ → ∀ x, InInterval out x →
      ∃ st, kernelScan (fieldOps K) k in_ rate ((fieldOps K).min (rate.toFloat (fieldOps K)) (fieldOps K).one)
        buffer x = some st ∧ cropKernelAssert st = true ∧ 0 < st.sum := by
  refine build_of_positive k in_ out rate hout fun x h => ?_
  obtain ⟨p, e, _, v⟩ := C46_position x rate hr hp (hx x h) hn hd
  exact ⟨p, e, C62_sum_positive hk in_ out rate hr hp hm x h p v⟩

theorem rate_one_weights {k : K → K} (hk : Interpolating k) {x : Int} (hx : |x| < 2 ^ 29) :
    ∃ p, kernelPosition x ⟨1#64, 1#64⟩ = some p ∧
      ∀ i, weight (fieldOps K) k ⟨1#64, 1#64⟩ p i = if i = x then 1 else 0 := by
  have hr : Canonical ⟨1#64, 1#64⟩ := ⟨by decide, by decide⟩
  have h1 : (1#64).toInt = 1 := by decide
  have hv : value ⟨1#64, 1#64⟩ = 1 := by
    unfold value; rw [h1]; norm_num
  obtain ⟨p, e, _, v⟩ := C46_position x ⟨1#64, 1#64⟩ hr (by rw [hv]; norm_num) hx (by decide) (by decide)
  refine ⟨p, e, fun i => ?_⟩
  have v : value p = x := by rw [v, hv]; ring
  have vk : (p.n.toInt : K) / (p.d.toInt : K) = (x : K) := by rw [← value_cast, v]; push_cast; rfl
  have : weight (fieldOps K) k ⟨1#64, 1#64⟩ p i = k ((i - x : ℤ) : K) := by
    show k (((i : K) - (p.n.toInt : K) / (p.d.toInt : K)) *
      (if (1 : K) < ((1#64).toInt : K) / ((1#64).toInt : K) then 1 else ((1#64).toInt : K) / ((1#64).toInt : K))) = _
    rw [vk, h1]
    congr 1
    push_cast
    simp
  rw [this]
  split <;> rename_i h
  · rw [h, sub_self, Int.cast_zero, hk.1]
  · exact hk.2 _ (sub_ne_zero.2 h)

theorem rate_one_kernel {in_ : Interval} {x : Int} (hx : InInterval in_ x) {w : Int → K}
    (hw : ∀ i, w i = if i = x then 1 else 0) {kx : Dense1 K} (g : GoodKernel (fieldOps K) in_ w kx) :
    kx.dom = ⟨x, 1⟩ ∧ kx.data x = 1 := by
  have nz : ∀ i, (fieldOps K).nonZero (w i) = true ↔ i = x := by
    intro i
    show decide (_ ≠ _) = true ↔ _
    rw [hw]
    split <;> rename_i h <;> simp [h]
  have a := (nz _).1 g.2.2.1
  have b := (nz _).1 g.2.2.2.1
  have hdom : kx.dom = ⟨x, 1⟩ := by
    have h : kx.dom.extent = 1 := by omega
    exact Interval.mk.injEq .. ▸ ⟨a, h⟩
  refine ⟨hdom, ?_⟩
  have hone := C46_sum_one _ _ _ g (by
    rw [Finset.sum_congr rfl fun i _ => hw i, Finset.sum_ite_eq' _ x, if_pos (Finset.mem_Ico.2 hx)]
    norm_num)
  rw [hdom] at hone
  have hI : Finset.Ico x (x + 1) = {x} := by ext n; simp only [Finset.mem_Ico, Finset.mem_singleton]; omega
  simpa only [hI, Finset.sum_singleton] using hone

/-- C62: with rate one, an interpolating kernel takes exactly the input pixel with the index of the output
pixel, with weight one. -/
theorem C62_rate_one {k : K → K} (hk : Interpolating k) (in_ out : Interval) (hout : 0 ≤ out.extent)
    (hsub : ∀ x, InInterval out x → InInterval in_ x ∧ |x| < 2 ^ 29) :
    ∃ ks, buildKernels (fieldOps K) in_ out ⟨1#64, 1#64⟩ k = some ks ∧ ks.dom = out ∧
      ∀ x, InInterval out x → (ks.data x).dom = ⟨x, 1⟩ ∧ (ks.data x).data x = 1 := by
  obtain ⟨ks, e1, e2, e3⟩ := C46_kernels (fieldOps K) in_ out ⟨1#64, 1#64⟩ k hout (by
    intro x hx
    obtain ⟨p, e, w⟩ := rate_one_weights hk (hsub x hx).2
    exact ⟨p, e, x, (hsub x hx).1, decide_eq_true (by rw [w, if_pos rfl]; norm_num)⟩)
  refine ⟨ks, e1, e2, fun x hx => ?_⟩
  obtain ⟨p, e, w⟩ := rate_one_weights hk (hsub x hx).2
  exact rate_one_kernel (hsub x hx).1 w (e3 x p hx e)

/-- C62: `resample` with rates one and an interpolating kernel copies the image. -/
theorem C62_copy {k : K → K} (hk : Interpolating k) (in_ out : Image3) (bi bo : Int) (ax ay : Int → Int)
    (buf : Interval → Nat → Int) (m : Mem K)
    (hbi : in_.base = some bi) (hbo : out.base = some bo)
    (hin : ProperDim in_.x ∧ ProperDim in_.y ∧ ProperDim in_.c)
    (hout : ProperDim out.x ∧ ProperDim out.y ∧ ProperDim out.c)
    (h64 : 64 ≤ out.y.val.extent)
    (hx : ∀ x, inRangeOf out.x x → inRangeOf in_.x x ∧ |x| < 2 ^ 29)
    (hy : ∀ y, inRangeOf out.y y → inRangeOf in_.y y ∧ |y| < 2 ^ 29)
    (hcs : ∀ c, inRangeOf out.c c → inRangeOf in_.c c)
    (hfit1 : 64 * in_.x.val.extent * out.c.val.extent ≤ 9223372036854775807)
    (hfit2 : 64 * out.x.val.extent * out.c.val.extent ≤ 9223372036854775807)
    (hsep : ∀ kx ky, buildKernels (fieldOps K) in_.x.val.toInterval out.x.val.toInterval ⟨1#64, 1#64⟩ k = some kx →
      buildKernels (fieldOps K) in_.y.val.toInterval out.y.val.toInterval ⟨1#64, 1#64⟩ k = some ky →
      SeparateObjects in_ out bi bo kx ky ax ay buf) (debug : Bool) :
    ∃ m', resample (fieldOps K) debug in_ out ⟨1#64, 1#64⟩ ⟨1#64, 1#64⟩ k ax ay buf m = some m' ∧
      ∀ x y c, inRangeOf out.x x → inRangeOf out.y y → inRangeOf out.c c →
        m' (pixelAddress out bo x y c) = m (pixelAddress in_ bi x y c) := by
  have weights : ∀ {a b : Interval} (hb : 0 ≤ b.extent) (h : ∀ x, InInterval b x → InInterval a x ∧ |x| < 2 ^ 29),
      ∀ x, InInterval b x → ∃ p, kernelPosition x ⟨1#64, 1#64⟩ = some p ∧
        (fieldOps K).nonZero (weight (fieldOps K) k ⟨1#64, 1#64⟩ p x) = true ∧
        ∀ kx : Dense1 K, GoodKernel (fieldOps K) a (weight (fieldOps K) k ⟨1#64, 1#64⟩ p) kx →
          kx.dom = ⟨x, 1⟩ ∧ kx.data x = 1 := by
    intro a b hb h x hx
    obtain ⟨p, e, w⟩ := rate_one_weights hk (h x hx).2
    refine ⟨p, e, ?_, fun kx g => rate_one_kernel (h x hx).1 w g⟩
    exact decide_eq_true (by rw [w, if_pos rfl]; norm_num)
  have wx := weights (a := in_.x.val.toInterval) (b := out.x.val.toInterval) hout.1.2.le hx
  have wy := weights (a := in_.y.val.toInterval) (b := out.y.val.toInterval) hout.2.1.2.le hy
  obtain ⟨kx, ky, gx, gy, -, h⟩ := C51_resample (fieldOps K) in_ out bi bo ⟨1#64, 1#64⟩ ⟨1#64, 1#64⟩ k ax ay buf m
    hbi hbo hin hout h64 hcs hfit1 hfit2
    (fun x h => by obtain ⟨p, e, w, -⟩ := wx x h; exact ⟨p, e, x, (hx x h).1, w⟩)
    (fun y h => by obtain ⟨p, e, w, -⟩ := wy y h; exact ⟨p, e, y, (hy y h).1, w⟩) hsep
  obtain ⟨m', e, val, -⟩ := h debug
  refine ⟨m', e, fun x y c h1 h2 h3 => ?_⟩
  rw [val x y c h1 h2 h3]
  obtain ⟨p, ep, -, wp⟩ := wx x h1
  obtain ⟨q, eq, -, wq⟩ := wy y h2
  obtain ⟨d1, v1⟩ := wp _ (gx x p h1 ep)
  obtain ⟨d2, v2⟩ := wq _ (gy y q h2 eq)
  have one : ∀ (kx : Dense1 K) (x : Int) (f : Int → K), kx.dom = ⟨x, 1⟩ → kx.data x = 1 →
      kernelSum (fieldOps K) kx f = f x := by
    intro kx x f d v
    unfold kernelSum
    rw [d]
    show (0 : K) + f (x + ((0 : Nat) : Int)) * kx.data (x + ((0 : Nat) : Int)) = f x
    rw [Nat.cast_zero, add_zero, v]
    ring
  rw [one _ x _ d1 v1, one _ y _ d2 v2]

end

/-! ### Concrete cases -/

/- The Catmull-Rom weights a quarter of the way between two samples. -/
example : interpolatingCubic (5 / 4 : ℚ) = -9 / 128 ∧ interpolatingCubic (1 / 4 : ℚ) = 111 / 128 ∧
    interpolatingCubic (-3 / 4 : ℚ) = 29 / 128 ∧ interpolatingCubic (-7 / 4 : ℚ) = -3 / 128 := by decide +kernel
example : cubicBspline (1 : ℚ) = 1 / 6 ∧ quadraticBspline (-1 : ℚ) = 1 / 8 ∧
    interpolatingQuadratic (5 / 4 : ℚ) = -1 / 16 ∧ linear (3 / 4 : ℚ) = 1 / 4 ∧ box (1 / 2 : ℚ) = 1 := by
  decide +kernel
/- Reducing 30 pixels to 7: the hypotheses hold. -/
example : MapsInto ⟨0, 30⟩ ⟨0, 7⟩ (7 / 30) ∧ Canonical ⟨7#64, 30#64⟩ :=
  ⟨⟨by norm_num, by norm_num⟩, by decide, by decide⟩

end Nda
