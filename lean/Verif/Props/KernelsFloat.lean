import Verif.Lemmas.KernelsFloatSums
import Verif.Props.ResampleProgram
/-
C91: the kernels in the arithmetic of `float`.
-/
namespace Nda
open Spec Kernel

/-- Exact arithmetic in a field, with comparisons. -/
def fieldKernelOps (K : Type) [Field K] [LinearOrder K] : KernelOps K where
  toFloatOps := fieldOps K
  abs s := |s|
  neg s := -s
  lt a b := decide (a < b)
  le a b := decide (a ≤ b)
  lit q := q

/-- C91: in exact arithmetic the operations of the kernels compute the functions of C62. -/
theorem C91_exact {K : Type} [Field K] [LinearOrder K] [IsStrictOrderedRing K] (s : K) :
    boxOp (fieldKernelOps K) s = box s ∧ linearOp (fieldKernelOps K) s = linear s ∧
    interpolatingQuadraticOp (fieldKernelOps K) s = interpolatingQuadratic s ∧
    interpolatingCubicOp (fieldKernelOps K) s = interpolatingCubic s ∧
    quadraticBsplineOp (fieldKernelOps K) s = quadraticBspline s ∧
    cubicBsplineOp (fieldKernelOps K) s = cubicBspline s := by
  refine ⟨?_, ?_, ?_, ?_, ?_, ?_⟩
  · simp [boxOp, box, fieldKernelOps]
  · simp [linearOp, linear, fieldKernelOps, fieldOps]
  · simp [interpolatingQuadraticOp, quadraticFamilyOp, interpolatingQuadratic, quadraticFamily, fieldKernelOps, fieldOps]
  · simp [interpolatingCubicOp, cubicFamilyOp, interpolatingCubic, cubicFamily, fieldKernelOps, fieldOps]
  · simp [quadraticBsplineOp, quadraticFamilyOp, quadraticBspline, quadraticFamily, fieldKernelOps, fieldOps]
  · simp [cubicBsplineOp, cubicFamilyOp, cubicBspline, cubicFamily, fieldKernelOps, fieldOps]

/-- C91: in binary32 each kernel is the exact one with an error of at most `ε`, for every number, and zero where the
exact one is; `box` has no error. -/
theorem C91_error :
    Computes (boxOp float32Kernel) box (1 / 2) 0 ∧
    Computes (linearOp float32Kernel) linear 1 (1 / 2 ^ 24) ∧
    Computes (interpolatingQuadraticOp float32Kernel) interpolatingQuadratic (3 / 2) (1 / 2 ^ 20) ∧
    Computes (quadraticBsplineOp float32Kernel) quadraticBspline (3 / 2) (1 / 2 ^ 20) ∧
    Computes (interpolatingCubicOp float32Kernel) interpolatingCubic 2 (1 / 2 ^ 17) ∧
    Computes (cubicBsplineOp float32Kernel) cubicBspline 2 (1 / 2 ^ 17) :=
  ⟨box_computes, linear_computes, quadratic_one, quadratic_half, cubic_interpolating, cubic_spline⟩

theorem Spec.FloatKernel.computes {k : Option ℚ → Option ℚ} {K : ℚ → ℚ} (h : FloatKernel k K) :
    ∃ r ε, Computes k K r ε ∧ r ≤ 2 ∧ ε ≤ 1 / 2 ^ 17 := by
  cases h
  · exact ⟨_, _, linear_computes, by norm_num, by norm_num⟩
  · exact ⟨_, _, quadratic_one, by norm_num, by norm_num⟩
  · exact ⟨_, _, cubic_interpolating, by norm_num, by norm_num⟩
  · exact ⟨_, _, quadratic_half, by norm_num, by norm_num⟩
  · exact ⟨_, _, cubic_spline, by norm_num, by norm_num⟩

theorem Spec.FloatKernel.tame {k : Option ℚ → Option ℚ} {K : ℚ → ℚ} (h : FloatKernel k K) : TameKernel K := by
  cases h
  · exact tame_linear
  · exact tame_quadratic
  · exact tame_cubic
  · exact tame_quadratic_bspline
  · exact tame_cubic_bspline

/-- The weights of one output pixel. -/
theorem kernel_weights {k : Option ℚ → Option ℚ} {K : ℚ → ℚ} (hk : FloatKernel k K) (in_ out : Interval) (rate : Rational)
    (hr : Canonical rate) (hp : 0 < value rate) (hm : MapsInto in_ out (value rate)) {c : ℚ}
    (hc : ∀ i, InInterval in_ i → |(i : ℚ)| ≤ c) {N : Nat}
    (hN : 9 / 2 ≤ N * min (value rate) 1) (hN2 : N ≤ 500) (hNc : N * (2 * c + 8) ≤ 100000)
    (x : Int) (hx : InInterval out x) (p : Rational) (cp : Canonical p) (hv : value p = ((x : ℚ) + 1 / 2) / value rate - 1 / 2) :
    GoodWeights IsFloat (fun x => x.getD 0) ((2 : ℚ)⁻¹ ^ 24) largestFloat N in_ (weight float32 k rate p) ∧
    ∑ i ∈ spanOf in_, |(weight float32 k rate p i).getD 0 - K ((i - value p) * min (value rate) 1)| ≤
      N * (20 / 2 ^ 24 * (2 * c + 8)) ∧
    1 / 8 ≤ weightSum (fun x => x.getD 0) in_ (weight float32 k rate p) ∧
    condition (fun x => x.getD 0) in_ (weight float32 k rate p) ≤ 16 * N ∧
    sumError ((2 : ℚ)⁻¹ ^ 24) N (condition (fun x => x.getD 0) in_ (weight float32 k rate p)) ≤ 1 / 2 := by
  obtain ⟨r, ε, h1, h2, h3⟩ := hk.computes
  obtain ⟨i1, i2, hpos, -⟩ := nearest_pixel K in_ out rate hp hm x hx p hv
  obtain ⟨cc, hl, hh⟩ := hk.tame.lobes
  have t1 : min (value rate) 1 ≤ 1 := min_le_right _ _
  have t0 : 0 < min (value rate) 1 := lt_min hp (by norm_num)
  simp only [Rat.cast_id] at hpos
  have hsum : 1 / 4 ≤ ∑ i ∈ spanOf in_, K ((i - value p) * min (value rate) 1) := by
    have a := hl.sum_ge (p := value p) t0 i1 i2 hpos
    have b := hh (((round (value p) : ℤ) - value p) * min (value rate) 1) (by
      rw [abs_mul, abs_of_pos t0]
      nlinarith [abs_nonneg (((round (value p) : ℤ) : ℚ) - value p)])
    have : spanOf in_ = Finset.Ico in_.min (in_.min + in_.extent) := rfl
    rw [this]
    linarith
  have hround : |value p| ≤ c + 1 / 2 := by
    have a := hc _ ⟨i1, i2⟩
    have b := abs_add_le (value p - (round (value p) : ℤ)) ((round (value p) : ℤ) : ℚ)
    rw [sub_add_cancel] at b
    rw [abs_sub_comm] at hpos
    linarith
  have key := float_weights h1 h2 h3 hk.tame rate p hr hp cp in_ (b := 2 * c + 1) (N := N)
    (fun i hi => by have := hc i hi; linarith) hN hN2 (by
      have : (2 * c + 1 + 7 : ℚ) = 2 * c + 8 := by ring
      rw [this]; exact hNc) hsum
  have e : (2 * c + 1 + 7 : ℚ) = 2 * c + 8 := by ring
  rw [e] at key
  exact key

/-- C91: the weights that `build_kernels` computes in binary32, for every output pixel in the image of the input: if the
coordinates of the input are at most `c` and at most `N` pixels are near a position, they are finite, at most `N` of them
are not zero, they differ by at most `20 N (2 c + 8) / 2^24` in total from the exact ones, and their sum is not small. -/
theorem C91_weights {k : Option ℚ → Option ℚ} {K : ℚ → ℚ} (hk : FloatKernel k K) (in_ out : Interval) (rate : Rational)
    (hr : Canonical rate) (hp : 0 < value rate) (hm : MapsInto in_ out (value rate)) {c : ℚ}
    (hc : ∀ i, InInterval in_ i → |(i : ℚ)| ≤ c) {N : Nat}
    (hN : 9 / 2 ≤ N * min (value rate) 1) (hN2 : N ≤ 500) (hNc : N * (2 * c + 8) ≤ 100000)
    (hx : ∀ x, InInterval out x → |x| < 2 ^ 29) (hn : rate.n.toInt < 2 ^ 29) (hd : rate.d.toInt < 2 ^ 29) :
    ∀ x, InInterval out x → ∃ p, kernelPosition x rate = some p ∧ value p = ((x : ℚ) + 1 / 2) / value rate - 1 / 2 ∧
      GoodWeights IsFloat (fun x => x.getD 0) ((2 : ℚ)⁻¹ ^ 24) largestFloat N in_ (weight float32 k rate p) ∧
      ∑ i ∈ spanOf in_, |(weight float32 k rate p i).getD 0 - K ((i - value p) * min (value rate) 1)| ≤
        N * (20 / 2 ^ 24 * (2 * c + 8)) ∧
      1 / 8 ≤ weightSum (fun x => x.getD 0) in_ (weight float32 k rate p) := by
  intro x h
  obtain ⟨p, e, cp, v⟩ := C46_position x rate hr hp (hx x h) hn hd
  obtain ⟨a1, a2, a3, -⟩ := kernel_weights hk in_ out rate hr hp hm hc hN hN2 hNc x h p cp v
  exact ⟨p, e, v, a1, a2, a3⟩

/-- C91: so the assertion of `build_kernels` holds in binary32 too, and the kernels are built. -/
theorem C91_build {k : Option ℚ → Option ℚ} {K : ℚ → ℚ} (hk : FloatKernel k K) (in_ out : Interval) (rate : Rational)
    (hr : Canonical rate) (hp : 0 < value rate) (hm : MapsInto in_ out (value rate)) (hout : 0 ≤ out.extent) {c : ℚ}
    (hc : ∀ i, InInterval in_ i → |(i : ℚ)| ≤ c) {N : Nat}
    (hN : 9 / 2 ≤ N * min (value rate) 1) (hN2 : N ≤ 500) (hNc : N * (2 * c + 8) ≤ 100000)
    (hx : ∀ x, InInterval out x → |x| < 2 ^ 29) (hn : rate.n.toInt < 2 ^ 29) (hd : rate.d.toInt < 2 ^ 29) :
    (∃ ks, buildKernels float32 in_ out rate k = some ks ∧ ks.dom = out ∧ ∀ x, InInterval out x →
      (∀ i, InInterval (ks.data x).dom i → InInterval in_ i) ∧ (ks.data x).dom.extent ≤ N ∧
      ∀ i, InInterval (ks.data x).dom i → IsFloat ((ks.data x).data i)) ∧
    ∀ (buffer : Dense1 (Option ℚ)), buffer.dom = in_ → ∀ x, InInterval out x →
      ∃ st, kernelScan float32 k in_ rate (float32.min (rate.toFloat float32) float32.one) buffer x = some st ∧
        cropKernelAssert st = true := by
  have W := C91_weights hk in_ out rate hr hp hm hc hN hN2 hNc hx hn hd
  have cover : ∀ x, InInterval out x → ∃ p, kernelPosition x rate = some p ∧
      ∃ i, InInterval in_ i ∧ float32.nonZero (weight float32 k rate p i) = true := by
    intro x h
    obtain ⟨p, e, -, G, -⟩ := W x h
    obtain ⟨i, hi, hw⟩ := Finset.exists_ne_zero_of_sum_ne_zero G.sum
    have hi' : InInterval in_ i := Finset.mem_Ico.1 hi
    exact ⟨p, e, i, hi', (C84_float.nonZero _ (G.finite i hi')).2 hw⟩
  constructor
  · obtain ⟨ks, h1, h2, h3⟩ := C46_kernels float32 in_ out rate k hout cover
    refine ⟨ks, h1, h2, fun x h => ?_⟩
    obtain ⟨p, e, -, G, -⟩ := W x h
    obtain ⟨hsub, hmin, hz1, hz2, hin, s, hs, hdata⟩ := h3 x p h e
    refine ⟨hsub, ?_, fun i hi => ?_⟩
    · have h1 := hsub _ hmin
      have h2 : InInterval (ks.data x).dom ((ks.data x).dom.min + (ks.data x).dom.extent - 1) := by
        unfold InInterval at hmin ⊢; omega
      have := G.support _ _ h1 (hsub _ h2) ((C84_float.nonZero _ (G.finite _ h1)).1 hz1)
        ((C84_float.nonZero _ (G.finite _ (hsub _ h2))).1 hz2)
      omega
    · rw [hdata i hi]
      exact (G.tap C84_float hs (hsub i hi)).1
  · intro buffer hb x h
    obtain ⟨p, e, hnz⟩ := cover x h
    obtain ⟨st, kx, h1, -, h3, -⟩ := kernel_one float32 k in_ rate buffer hb x p e hnz
    exact ⟨st, h1, h3⟩

/-- One direction of the program. -/
theorem program_direction {k : Option ℚ → Option ℚ} {K : ℚ → ℚ} (hk : FloatKernel k K) {n newN : Int} (hn : 1 ≤ n ∧ n < 2 ^ 29)
    (hN : 1 ≤ newN ∧ newN < 2 ^ 29) {N : Nat} (h1 : 9 / 2 ≤ N * min ((newN : ℚ) / n) 1) (h2 : N ≤ 500)
    (h3 : N * (2 * n + 8) ≤ 100000) :
    ∃ rate, Rational.mk2 (BitVec.ofInt 64 newN) (BitVec.ofInt 64 n) = some rate ∧
      ∀ x, InInterval ⟨0, newN⟩ x → ∃ p, kernelPosition x rate = some p ∧
        GoodWeights IsFloat (fun x => x.getD 0) ((2 : ℚ)⁻¹ ^ 24) largestFloat N ⟨0, n⟩ (weight float32 k rate p) ∧
        ∑ i ∈ spanOf ⟨0, n⟩, |(weight float32 k rate p i).getD 0 - sampleWeight K n newN x i| ≤
          N * (20 / 2 ^ 24 * (2 * n + 8)) ∧
        1 / 8 ≤ weightSum (fun x => x.getD 0) ⟨0, n⟩ (weight float32 k rate p) ∧
        condition (fun x => x.getD 0) ⟨0, n⟩ (weight float32 k rate p) ≤ 16 * N ∧
        sumError ((2 : ℚ)⁻¹ ^ 24) N (condition (fun x => x.getD 0) ⟨0, n⟩ (weight float32 k rate p)) ≤ 1 / 2 := by
  have hn' : n < 536870912 := by have := hn.2; norm_num at this; exact this
  have hN' : newN < 536870912 := by have := hN.2; norm_num at this; exact this
  obtain ⟨rate, e, hc, hv, hp, r1, r2⟩ := rate_make (n := newN) (d := n) hN.1 (by omega) hn.1 (by omega)
  refine ⟨rate, e, fun x hx => ?_⟩
  have hx0 : 0 ≤ x := hx.1
  have hx1 : x < 0 + newN := hx.2
  obtain ⟨p, ep, cp, vp⟩ := C46_position x rate hc hp (by rw [abs_of_nonneg hx0]; norm_num; omega)
    (by norm_num; omega) (by norm_num; omega)
  have hnq : (0 : ℚ) < n := by exact_mod_cast (by omega : 0 < n)
  have key := kernel_weights hk ⟨0, n⟩ ⟨0, newN⟩ rate hc hp ⟨by simp, by
    rw [hv]; push_cast; rw [zero_add, zero_add, div_mul_cancel₀ _ hnq.ne']⟩ (c := n) (fun i hi => by
      have a : (0 : Int) ≤ i := hi.1
      have b : i < 0 + n := hi.2
      rw [abs_of_nonneg (by exact_mod_cast a)]
      exact_mod_cast (by omega : i ≤ n)) (by rw [hv]; exact h1) h2 (by exact_mod_cast h3) x hx p cp vp
  refine ⟨p, ep, ?_⟩
  have e1 : value p = samplePosition n newN x := by
    rw [vp, hv, div_div_eq_mul_div]
    rfl
  have e2 : ∀ i : Int, K ((i - value p) * min (value rate) 1) = sampleWeight K n newN x i := by
    intro i
    rw [e1, hv]
    rfl
  simp only [e2] at key
  exact key

/-- C91: the program that resizes images, in binary32 and with each of the kernels: for images of at most 9996 by 9996
pixels (fewer, if the image is made much smaller) it ends without an undefined operation or a failing assertion, and each
component of the result is a weighted mean of components of the input, limited to their range, with the error of C85 and
without its fraction; the weights differ from those of the specification by at most `20 N (2 n + 8) / 2^24` in total. -/
theorem C91_program {k : Option ℚ → Option ℚ} {K : ℚ → ℚ} (hk : FloatKernel k K) (top : Int) (h0 : 0 ≤ top) (h24 : top < 2 ^ 24)
    (w h newW newH : Int) (hw : 1 ≤ w ∧ w < 2 ^ 29) (hh : 1 ≤ h ∧ h < 2 ^ 29) (hW : 1 ≤ newW ∧ newW < 2 ^ 29)
    (hH : 64 ≤ newH ∧ newH < 2 ^ 29) (NX NY : Nat)
    (x1 : 9 / 2 ≤ NX * min ((newW : ℚ) / w) 1) (x2 : NX ≤ 500) (x3 : NX * (2 * w + 8) ≤ 100000)
    (y1 : 9 / 2 ≤ NY * min ((newH : ℚ) / h) 1) (y2 : NY ≤ 500) (y3 : NY * (2 * h + 8) ≤ 100000)
    (cacheIn cacheOut : Int) (pixels : Mem Int) (m : Mem (Option ℚ))
    (hpix : ∀ x y c, IsComponent w h x y c → 0 ≤ pixels (componentAddress cacheIn w x y c) ∧
      pixels (componentAddress cacheIn w x y c) ≤ top) (debug : Bool) :
    ∃ (ax ay : Int → Int) (buf : Interval → Nat → Int) (pixels' : Mem Int),
      resizeImage float32 (floatQuantum top) debug w h newW newH k cacheIn cacheOut 0 (4 * (w * h)) ax ay buf pixels m =
        some pixels' ∧
      (∀ x y c, IsComponent newW newH x y c → ∃ (v : ℚ) (wx wy : Int → Option ℚ),
        pixels' (componentAddress cacheOut newW x y c) = ⌊v⌋ ∧
        |v - limited top (weightedMean (fun x => x.getD 0) w h wx wy fun i j => pixels (componentAddress cacheIn w i j c))| ≤
          stageBound ((2 : ℚ)⁻¹ ^ 24) ((2 : ℚ) ^ (-150 : Int)) NX (condition (fun x => x.getD 0) ⟨0, w⟩ wx)
            (stageBound ((2 : ℚ)⁻¹ ^ 24) ((2 : ℚ) ^ (-150 : Int)) NY (condition (fun x => x.getD 0) ⟨0, h⟩ wy) top) -
            top * condition (fun x => x.getD 0) ⟨0, h⟩ wy * condition (fun x => x.getD 0) ⟨0, w⟩ wx ∧
        ∑ i ∈ spanOf ⟨0, w⟩, |(wx i).getD 0 - sampleWeight K w newW x i| ≤ NX * (20 / 2 ^ 24 * (2 * w + 8)) ∧
        ∑ j ∈ spanOf ⟨0, h⟩, |(wy j).getD 0 - sampleWeight K h newH y j| ≤ NY * (20 / 2 ^ 24 * (2 * h + 8))) ∧
      ∀ p, p < cacheOut ∨ cacheOut + 4 * (newW * newH) ≤ p → pixels' p = pixels p := by
  have hH' : 1 ≤ newH ∧ newH < 2 ^ 29 := ⟨by omega, hH.2⟩
  obtain ⟨rateX, ex, hkx⟩ := program_direction hk hw hW x1 x2 x3
  obtain ⟨rateY, ey, hky⟩ := program_direction hk hh hH' y1 y2 y3
  have bound : ∀ n : Int, n < 2 ^ 29 → 64 * n * 4 ≤ 9223372036854775807 := by
    intro n hn
    norm_num at hn
    omega
  have cover : ∀ {a b : SDim} {rate : Rational} {n : Nat}, (∀ x, inRangeOf b x → ∃ p, kernelPosition x rate = some p ∧
      GoodWeights IsFloat (fun x => x.getD 0) ((2 : ℚ)⁻¹ ^ 24) largestFloat n a.val.toInterval (weight float32 k rate p)) →
      KernelsCover float32 a b rate k := by
    intro a b rate n h x hx
    obtain ⟨p, hp, G⟩ := h x hx
    obtain ⟨i, hi, hw⟩ := Finset.exists_ne_zero_of_sum_ne_zero G.sum
    have hi' : InInterval a.val.toInterval i := Finset.mem_Ico.1 hi
    exact ⟨p, hp, i, hi', (C84_float.nonZero _ (G.finite i hi')).2 hw⟩
  have gx : ∀ x, InInterval ⟨0, newW⟩ x → ∃ p, kernelPosition x rateX = some p ∧
      GoodWeights IsFloat (fun x => x.getD 0) ((2 : ℚ)⁻¹ ^ 24) largestFloat NX ⟨0, w⟩ (weight float32 k rateX p) :=
    fun x hx => by obtain ⟨p, a, b, -⟩ := hkx x hx; exact ⟨p, a, b⟩
  have gy : ∀ y, InInterval ⟨0, newH⟩ y → ∃ p, kernelPosition y rateY = some p ∧
      GoodWeights IsFloat (fun x => x.getD 0) ((2 : ℚ)⁻¹ ^ 24) largestFloat NY ⟨0, h⟩ (weight float32 k rateY p) :=
    fun y hy => by obtain ⟨p, a, b, -⟩ := hky y hy; exact ⟨p, a, b⟩
  obtain ⟨pixels', e, hval, hrest⟩ := C85_rounding C84_float (C85_float top h0 h24) w h newW newH (image_size hw hh)
    (image_size hW hH') hH.1 (bound w hw.2) (bound newW hW.2) k cacheIn cacheOut 0 (4 * (w * h))
    (fun x => 4 * (w * h) + 4 * (newW * newH) + x * w) (fun y => 4 * (w * h) + 4 * (newW * newH) + newW * w + y * h)
    (fun _ n => 4 * (w * h) + 4 * (newW * newH) + newW * w + newH * h + n * (256 * (w + newW))) pixels m rateX rateY ex ey NX NY
    gx gy (fun kx ky e1 e2 => C85_placement w h newW newH (image_size hw hh) (image_size hW hH') k rateX rateY _ _ _ _ rfl rfl rfl
      rfl (cover (a := (planarOf w h 4 0).x) (b := (planarOf newW newH 4 (4 * (w * h))).x) gx)
      (cover (a := (planarOf w h 4 0).y) (b := (planarOf newW newH 4 (4 * (w * h))).y) gy) kx ky e1 e2) hpix
    (fun x y px py hx hy hpx hpy => by
      obtain ⟨p, a1, -, -, -, a4, a5⟩ := hkx x hx
      obtain rfl : px = p := Option.some.inj (hpx.symm.trans a1)
      obtain ⟨p', b1, b2, -, -, b4, b5⟩ := hky y hy
      obtain rfl : py = p' := Option.some.inj (hpy.symm.trans b1)
      have c1 := Spec.GoodWeights.condition_nonneg (val := fun x : Option ℚ => x.getD 0) ⟨0, w⟩ (weight float32 k rateX px)
      have c2 := Spec.GoodWeights.condition_nonneg (val := fun x : Option ℚ => x.getD 0) ⟨0, h⟩ (weight float32 k rateY py)
      have t0 : (0 : ℚ) ≤ top := by exact_mod_cast h0
      have t1 : (top : ℚ) ≤ 2 ^ 24 := by exact_mod_cast h24.le
      have s1 := stage_le y2 c2 b4 b5 t0
      have s0 := t0.trans (stageBound_mono (u := (2 : ℚ)⁻¹ ^ 24) (η := (2 : ℚ) ^ (-150 : Int)) (n := NY) (by positivity)
        (two_zpow_pos (-150)).le (one_le_condition b2.sum) (b5.trans_lt (by norm_num)) t0)
      have s2 := stage_le x2 c1 a4 a5 s0
      refine s2.trans ?_
      have : (2 : ℚ) ^ 17 * (2 ^ 17 * (2 ^ 24 + 1) + 1) ≤ largestFloat := by unfold largestFloat; norm_num
      refine le_trans ?_ this
      exact mul_le_mul_of_nonneg_left (by linarith) (by norm_num)) debug
  refine ⟨_, _, _, pixels', e, fun x y c hc => ?_, hrest⟩
  have hx : InInterval ⟨0, newW⟩ x := ⟨hc.1.1, by show x < 0 + newW; have := hc.1.2; omega⟩
  have hy : InInterval ⟨0, newH⟩ y := ⟨hc.2.1.1, by show y < 0 + newH; have := hc.2.1.2; omega⟩
  obtain ⟨px, a1, -, a3, -⟩ := hkx x hx
  obtain ⟨py, b1, -, b3, -⟩ := hky y hy
  obtain ⟨v, v1, v2⟩ := hval x y c px py hc a1 b1
  exact ⟨v, weight float32 k rateX px, weight float32 k rateY py, v1, v2, a3, b3⟩

/-- C91: with `box` there is no such guarantee: the last pixel of an image that is enlarged from 2 to 24623797 pixels has no
pixel near it, all weights are zero, and the assertion of `build_kernels` fails. In exact arithmetic it does not (C62). -/
theorem C91_box_counterexample :
    Canonical ⟨24623797#64, 2#64⟩ ∧ MapsInto ⟨0, 2⟩ ⟨0, 24623797⟩ (value ⟨24623797#64, 2#64⟩) ∧
    InInterval ⟨0, 24623797⟩ 24623796 ∧
    ∃ p, kernelPosition 24623796 ⟨24623797#64, 2#64⟩ = some p ∧
      (∀ i, InInterval ⟨0, 2⟩ i → weight float32 (boxOp float32Kernel) ⟨24623797#64, 2#64⟩ p i = some 0) ∧
      (∑ i ∈ spanOf ⟨0, 2⟩, box ((i - value p) * min (value ⟨24623797#64, 2#64⟩) 1) = 1) ∧
      ∀ buffer : Dense1 (Option ℚ), buffer.dom = ⟨0, 2⟩ → ∃ st, kernelScan float32 (boxOp float32Kernel) ⟨0, 2⟩
        ⟨24623797#64, 2#64⟩ (float32.min (Rational.toFloat float32 ⟨24623797#64, 2#64⟩) float32.one) buffer 24623796 = some st ∧
        cropKernelAssert st = false := by
  have hc : Canonical ⟨24623797#64, 2#64⟩ := ⟨by decide, by decide⟩
  have hv : value ⟨24623797#64, 2#64⟩ = 24623797 / 2 := by decide +kernel
  refine ⟨hc, ⟨by simp, by rw [hv]; norm_num⟩, ⟨by decide, by decide⟩, ?_⟩
  obtain ⟨p, e, cp, vp⟩ := C46_position 24623796 ⟨24623797#64, 2#64⟩ hc (by rw [hv]; norm_num) (by norm_num) (by decide) (by decide)
  have hp : p = ⟨73871389#64, 49247594#64⟩ := C45_canonical_unique cp ⟨by decide, by decide +kernel⟩ (by
    rw [vp, hv, show value ⟨73871389#64, 49247594#64⟩ = 73871389 / 49247594 by decide +kernel]
    norm_num)
  subst hp
  have zero : ∀ i, InInterval ⟨0, 2⟩ i →
      weight float32 (boxOp float32Kernel) ⟨24623797#64, 2#64⟩ ⟨73871389#64, 49247594#64⟩ i = some 0 := by
    intro i hi
    have h0 : (0 : Int) ≤ i := hi.1
    have h1 : i < 0 + 2 := hi.2
    obtain rfl | rfl : i = 0 ∨ i = 1 := by omega
    · decide +kernel
    · decide +kernel
  refine ⟨_, e, zero, by decide +kernel, fun buffer hb => ?_⟩
  obtain ⟨st, h1, h2, -⟩ := C46_zero_kernel_counterexample float32 (boxOp float32Kernel) ⟨0, 2⟩ ⟨24623797#64, 2#64⟩ buffer hb 24623796
    _ e (by decide) (fun i hi => by rw [zero i hi]; rfl)
  exact ⟨st, h1, h2⟩

/-- The cubic kernel at the number nearest to one third, in binary32: the error is not zero, and at 3/2 it is. -/
example : float32Kernel.lit (1 / 3) = some (11184811 / 33554432) ∧
    interpolatingCubicOp float32Kernel (some (11184811 / 33554432)) = some (6524473 / 8388608) ∧
    (6524473 / 8388608 : ℚ) ≠ interpolatingCubic (11184811 / 33554432) ∧
    |(6524473 / 8388608 : ℚ) - interpolatingCubic (11184811 / 33554432)| ≤ 1 / 2 ^ 25 ∧
    interpolatingCubicOp float32Kernel (some (3 / 2)) = some (-1 / 16) := by
  refine ⟨?_, ?_, ?_, ?_, ?_⟩ <;> decide +kernel

/-- The program doubles the size of an 8-bit image of 1920 by 1080 pixels with the cubic kernel, in binary32. -/
example (pixels : Mem Int) (m : Mem (Option ℚ))
    (hpix : ∀ x y c, IsComponent 1920 1080 x y c → 0 ≤ pixels (componentAddress 0 1920 x y c) ∧
      pixels (componentAddress 0 1920 x y c) ≤ 255) :
    ∃ ax ay buf pixels', resizeImage float32 (floatQuantum 255) true 1920 1080 3840 2160 (interpolatingCubicOp float32Kernel)
      0 10000000 0 (4 * (1920 * 1080)) ax ay buf pixels m = some pixels' := by
  obtain ⟨ax, ay, buf, pixels', h, -⟩ := C91_program .cubic 255 (by norm_num) (by norm_num) 1920 1080 3840 2160 (by norm_num)
    (by norm_num) (by norm_num) (by norm_num) 5 5 (by norm_num) (by norm_num) (by norm_num) (by norm_num) (by norm_num) (by norm_num)
    0 10000000 pixels m hpix true
  exact ⟨ax, ay, buf, pixels', h⟩

/-- And it makes it a tenth of the size: at most 45 weights are not zero. -/
example (pixels : Mem Int) (m : Mem (Option ℚ))
    (hpix : ∀ x y c, IsComponent 1000 1000 x y c → 0 ≤ pixels (componentAddress 0 1000 x y c) ∧
      pixels (componentAddress 0 1000 x y c) ≤ 255) :
    ∃ ax ay buf pixels', resizeImage float32 (floatQuantum 255) true 1000 1000 100 100 (cubicBsplineOp float32Kernel)
      0 10000000 0 (4 * (1000 * 1000)) ax ay buf pixels m = some pixels' := by
  obtain ⟨ax, ay, buf, pixels', h, -⟩ := C91_program .cubicBspline 255 (by norm_num) (by norm_num) 1000 1000 100 100 (by norm_num)
    (by norm_num) (by norm_num) (by norm_num) 45 45 (by norm_num) (by norm_num) (by norm_num) (by norm_num) (by norm_num)
    (by norm_num) 0 10000000 pixels m hpix true
  exact ⟨ax, ay, buf, pixels', h⟩

end Nda
