import Verif.Lemmas.RoundingResample
import Verif.Props.ResampleImage
/-
C84: rounding errors of resampling.
-/
namespace Nda
open Spec
variable {F : Type} {o : FloatOps F} {Finite : F → Prop} {val : F → ℚ} {u η Ω : ℚ}

theorem one_le_condition {v : Interval} {w : Int → F} (h : weightSum val v w ≠ 0) : 1 ≤ condition val v w := by
  unfold condition
  rw [one_le_div (abs_pos.2 h)]
  exact Finset.abs_sum_le_sum_abs _ _

theorem condition_eq_one {v : Interval} {w : Int → F} (h : weightSum val v w ≠ 0)
    (hw : ∀ i, InInterval v i → 0 ≤ val (w i)) : condition val v w = 1 := by
  unfold condition
  have h1 : |weightSum val v w| = weightSum val v w :=
    abs_of_nonneg (Finset.sum_nonneg fun i hi => hw i (Finset.mem_Ico.1 hi))
  rw [div_eq_one_iff_eq (abs_pos.2 h).ne', h1]
  exact Finset.sum_congr rfl fun i hi => abs_of_nonneg (hw i (Finset.mem_Ico.1 hi))

theorem stageBound_mono (hu : 0 ≤ u) (hη : 0 ≤ η) {n : Nat} {cond y : ℚ} (hc : 1 ≤ cond) (hs : sumError u n cond < 1)
    (hy : 0 ≤ y) : y ≤ stageBound u η n cond y := by
  have hρ := tapError_nonneg hu (n := n) (by linarith : 0 ≤ cond) hs
  have h1 : (1 : ℚ) ≤ (1 + u) ^ n := one_le_pow₀ (by linarith)
  have h2 : 1 ≤ (1 + tapError u n cond) * cond + n * η := by
    have : 0 ≤ (n : ℚ) * η := by positivity
    nlinarith
  have h3 : y ≤ (1 + u) * y := by nlinarith
  have h4 : (1 + u) * y * 1 ≤ (1 + u) * y * ((1 + tapError u n cond) * cond + n * η) :=
    mul_le_mul_of_nonneg_left h2 (by positivity)
  have h5 : 0 ≤ (n : ℚ) * η := by positivity
  have h6 : y ≤ (1 + u) * y * ((1 + tapError u n cond) * cond + n * η) + n * η := by linarith
  unfold stageBound
  nlinarith

/-- One direction. -/
theorem kernelSum_error (R : RoundsFloat o Finite val u η Ω) {n : Nat} {v : Interval} {w : Int → F} {k : Dense1 F}
    (hk : GoodKernel o v w k) (G : GoodWeights Finite val u Ω n v w) (f : Int → F) (X : Int → ℚ) {Z Y : ℚ}
    (hZ : 0 ≤ Z) (hY : Z ≤ Y) (hf : ∀ i, InInterval v i → Finite (f i) ∧ |X i| ≤ Z ∧ |val (f i) - X i| ≤ Y - Z)
    (hΩ : stageBound u η n (condition val v w) Y ≤ Ω) :
    Finite (kernelSum o k f) ∧
    |val (kernelSum o k f) - (∑ i ∈ spanOf v, X i * val (w i)) / weightSum val v w| ≤
      stageBound u η n (condition val v w) Y - Z * condition val v w ∧
    |(∑ i ∈ spanOf v, X i * val (w i)) / weightSum val v w| ≤ Z * condition val v w := by
  obtain ⟨hsub, hmin, hz1, hz2, hin, s, hs, hdata⟩ := hk
  have hu := R.unit
  have hc := Spec.GoodWeights.condition_nonneg (val := val) v w
  have hρ := tapError_nonneg hu hc G.small
  have hS : weightSum val v w ≠ 0 := G.sum
  have hext : k.dom.extent ≤ n := by
    have h1 := hsub _ hmin
    have h2 : InInterval k.dom (k.dom.min + k.dom.extent - 1) := by
      unfold InInterval at hmin ⊢; omega
    have := G.support _ _ h1 (hsub _ h2) ((R.nonZero _ (G.finite _ h1)).1 hz1) ((R.nonZero _ (G.finite _ (hsub _ h2))).1 hz2)
    omega
  have hss : spanOf k.dom ⊆ spanOf v := fun i hi => Finset.mem_Ico.2 (hsub i (Finset.mem_Ico.1 hi))
  have hzero : ∀ i ∈ spanOf v, i ∉ spanOf k.dom → val (w i) = 0 := by
    intro i hi hn
    by_contra h
    have hi' := Finset.mem_Ico.1 hi
    exact hn (Finset.mem_Ico.2 (hin i hi' ((R.nonZero _ (G.finite i hi')).2 h)))
  have hsum : ∀ x : Int → ℚ, (∀ i ∈ spanOf v, i ∉ spanOf k.dom → x i = 0) →
      ((ascending k.dom).map x).sum = ∑ i ∈ spanOf v, x i := by
    intro x hx
    rw [sum_ascending]
    exact Finset.sum_subset hss hx
  have hcond : ((ascending k.dom).map fun i => |val (w i) / weightSum val v w|).sum = condition val v w := by
    rw [hsum _ fun i hi hn => by rw [hzero i hi hn, zero_div, abs_zero]]
    unfold condition
    rw [Finset.sum_div]
    exact Finset.sum_congr rfl fun i _ => abs_div _ _
  have hX : ((ascending k.dom).map fun i => X i * (val (w i) / weightSum val v w)).sum =
      (∑ i ∈ spanOf v, X i * val (w i)) / weightSum val v w := by
    rw [hsum _ fun i hi hn => by rw [hzero i hi hn, zero_div, mul_zero], Finset.sum_div]
    exact Finset.sum_congr rfl fun i _ => by ring
  have key := R.stage f k.data X (fun i => val (w i) / weightSum val v w) (ascending k.dom) (n := n) (Z := Z) (Y := Y)
    (by rw [length_ascending]; omega) hZ hρ (fun i hi => hf i (hsub i (mem_ascending.1 hi))) hY
    (fun i hi => by
      have hi' := mem_ascending.1 hi
      rw [hdata i hi']
      exact G.tap R hs (hsub i hi')) hcond hΩ
  rw [hX] at key
  refine ⟨key.1, key.2, ?_⟩
  rw [← hX, ← hcond, ← List.sum_map_mul_left]
  refine abs_sum_map_le _ _ _ fun i hi => ?_
  rw [abs_mul]
  exact mul_le_mul_of_nonneg_right (hf i (hsub i (mem_ascending.1 hi))).2.1 (abs_nonneg _)

/-- Both directions. -/
theorem resampled_pixel (R : RoundsFloat o Finite val u η Ω) {n1 n2 : Nat} {vx vy : Interval} {wx wy : Int → F}
    {kx ky : Dense1 F} (g1 : GoodKernel o vx wx kx) (g2 : GoodKernel o vy wy ky)
    (Gx : GoodWeights Finite val u Ω n1 vx wx) (Gy : GoodWeights Finite val u Ω n2 vy wy) (f : Int → Int → F) {M : ℚ}
    (hM0 : 0 ≤ M) (hM : ∀ i j, InInterval vx i → InInterval vy j → Finite (f i j) ∧ |val (f i j)| ≤ M)
    (hΩ : stageBound u η n1 (condition val vx wx) (stageBound u η n2 (condition val vy wy) M) ≤ Ω) :
    Finite (kernelSum o kx fun i => kernelSum o ky fun j => f i j) ∧
    |val (kernelSum o kx fun i => kernelSum o ky fun j => f i j) -
      (∑ i ∈ spanOf vx, ∑ j ∈ spanOf vy, val (wx i) * val (wy j) * val (f i j)) /
        (weightSum val vx wx * weightSum val vy wy)| ≤
      stageBound u η n1 (condition val vx wx) (stageBound u η n2 (condition val vy wy) M) -
        M * condition val vy wy * condition val vx wx := by
  have hu := R.unit
  have hη := R.underflow
  have c1 := one_le_condition Gx.sum
  have c2 := one_le_condition Gy.sum
  have hY1 := stageBound_mono hu hη c2 Gy.small hM0 (η := η)
  have hY2 := stageBound_mono hu hη c1 Gx.small (hM0.trans hY1) (η := η)
  have inner : ∀ rx, InInterval vx rx →
      Finite (kernelSum o ky fun ry => f rx ry) ∧
      |(∑ j ∈ spanOf vy, val (f rx j) * val (wy j)) / weightSum val vy wy| ≤ M * condition val vy wy ∧
      |val (kernelSum o ky fun ry => f rx ry) -
        (∑ j ∈ spanOf vy, val (f rx j) * val (wy j)) / weightSum val vy wy| ≤
        stageBound u η n2 (condition val vy wy) M - M * condition val vy wy := by
    intro rx hrx
    obtain ⟨a1, a2, a3⟩ := kernelSum_error R g2 Gy (fun ry => f rx ry)
      (fun ry => val (f rx ry)) hM0 le_rfl (fun ry hry => by
        obtain ⟨f1, f2⟩ := hM rx ry hrx hry
        exact ⟨f1, f2, by simp⟩) (hY2.trans hΩ)
    exact ⟨a1, a3, a2⟩
  have hZ : M * condition val vy wy ≤ stageBound u η n2 (condition val vy wy) M := by
    have h1 := (inner _ (g1.1 _ g1.2.1)).2.2
    have := (abs_nonneg _).trans h1
    linarith
  obtain ⟨b1, b2, -⟩ := kernelSum_error R g1 Gx
    (fun rx => kernelSum o ky fun ry => f rx ry)
    (fun rx => (∑ j ∈ spanOf vy, val (f rx j) * val (wy j)) / weightSum val vy wy)
    (mul_nonneg hM0 (by linarith)) hZ inner hΩ
  refine ⟨b1, ?_⟩
  have hideal : (∑ i ∈ spanOf vx, ∑ j ∈ spanOf vy, val (wx i) * val (wy j) * val (f i j)) /
      (weightSum val vx wx * weightSum val vy wy) = (∑ i ∈ spanOf vx,
      (∑ j ∈ spanOf vy, val (f i j) * val (wy j)) / weightSum val vy wy * val (wx i)) / weightSum val vx wx := by
    rw [mul_comm (weightSum val vx wx), ← div_div, Finset.sum_div]
    congr 1
    refine Finset.sum_congr rfl fun i _ => ?_
    rw [div_mul_eq_mul_div, Finset.sum_mul]
    congr 1
    exact Finset.sum_congr rfl fun j _ => by ring
  rw [hideal]
  exact b2

/-- C84: each pixel of a resampled image differs from the weighted mean of the input that the kernels describe by at
most `stageBound` of `stageBound` of the largest magnitude of the input, less what this would be without errors. -/
theorem C84_resample (R : RoundsFloat o Finite val u η Ω) (in_ out : Image3) (bi bo : Int) (rateX rateY : Rational)
    (kernel : F → F) (ax ay : Int → Int) (buf : Interval → Nat → Int) (m : Mem F)
    (hbi : in_.base = some bi) (hbo : out.base = some bo)
    (hin : ProperDim in_.x ∧ ProperDim in_.y ∧ ProperDim in_.c)
    (hout : ProperDim out.x ∧ ProperDim out.y ∧ ProperDim out.c)
    (h64 : 64 ≤ out.y.val.extent)
    (hcs : ∀ c, inRangeOf out.c c → inRangeOf in_.c c)
    (hfit1 : 64 * in_.x.val.extent * out.c.val.extent ≤ 9223372036854775807)
    (hfit2 : 64 * out.x.val.extent * out.c.val.extent ≤ 9223372036854775807)
    (tapsX tapsY : Nat)
    (hkx : ∀ x, inRangeOf out.x x → ∃ p, kernelPosition x rateX = some p ∧
      GoodWeights Finite val u Ω tapsX in_.x.val.toInterval (weight o kernel rateX p))
    (hky : ∀ y, inRangeOf out.y y → ∃ p, kernelPosition y rateY = some p ∧
      GoodWeights Finite val u Ω tapsY in_.y.val.toInterval (weight o kernel rateY p))
    (hsep : ∀ kx ky, buildKernels o in_.x.val.toInterval out.x.val.toInterval rateX kernel = some kx →
      buildKernels o in_.y.val.toInterval out.y.val.toInterval rateY kernel = some ky →
      SeparateObjects in_ out bi bo kx ky ax ay buf)
    (M : ℚ) (hM : ∀ p, PixelOf in_ bi p → Finite (m p) ∧ |val (m p)| ≤ M) (debug : Bool) :
    ∃ m', resample o debug in_ out rateX rateY kernel ax ay buf m = some m' ∧
      ∀ x y c px py, inRangeOf out.x x → inRangeOf out.y y → inRangeOf out.c c →
        kernelPosition x rateX = some px → kernelPosition y rateY = some py →
        stageBound u η tapsX (condition val in_.x.val.toInterval (weight o kernel rateX px))
          (stageBound u η tapsY (condition val in_.y.val.toInterval (weight o kernel rateY py)) M) ≤ Ω →
        Finite (m' (pixelAddress out bo x y c)) ∧
        |val (m' (pixelAddress out bo x y c)) -
          idealPixel val in_ bi m (weight o kernel rateX px) (weight o kernel rateY py) c| ≤
          stageBound u η tapsX (condition val in_.x.val.toInterval (weight o kernel rateX px))
            (stageBound u η tapsY (condition val in_.y.val.toInterval (weight o kernel rateY py)) M) -
            M * condition val in_.y.val.toInterval (weight o kernel rateY py) *
              condition val in_.x.val.toInterval (weight o kernel rateX px) := by
  have hu := R.unit
  have hη := R.underflow
  have cover : ∀ {a b : SDim} {rate : Rational} {n : Nat}, (∀ x, inRangeOf b x → ∃ p, kernelPosition x rate = some p ∧
      GoodWeights Finite val u Ω n a.val.toInterval (weight o kernel rate p)) → KernelsCover o a b rate kernel := by
    intro a b rate n h x hx
    obtain ⟨p, hp, G⟩ := h x hx
    obtain ⟨i, hi, hw⟩ := Finset.exists_ne_zero_of_sum_ne_zero G.sum
    have hi' : InInterval a.val.toInterval i := Finset.mem_Ico.1 hi
    exact ⟨p, hp, i, hi', (R.nonZero _ (G.finite i hi')).2 hw⟩
  obtain ⟨kx, ky, gx, gy, sep, h⟩ := C51_resample o in_ out bi bo rateX rateY kernel ax ay buf m
    hbi hbo hin hout h64 hcs hfit1 hfit2 (cover hkx) (cover hky) hsep
  obtain ⟨m', e, hval, -⟩ := h debug
  refine ⟨m', e, ?_⟩
  intro x y c px py hx hy hc hpx hpy hΩ
  rw [hval x y c hx hy hc]
  obtain ⟨px', hpx', Gx⟩ := hkx x hx
  obtain ⟨py', hpy', Gy⟩ := hky y hy
  obtain rfl : px = px' := Option.some.inj (hpx.symm.trans hpx')
  obtain rfl : py = py' := Option.some.inj (hpy.symm.trans hpy')
  have g1 := gx x px hx hpx
  have g2 := gy y py hy hpy
  have hM0 : 0 ≤ M :=
    (abs_nonneg _).trans (hM _ ⟨in_.x.val.min, in_.y.val.min, c, ⟨le_rfl, by have := hin.1.2; omega⟩,
      ⟨le_rfl, by have := hin.2.1.2; omega⟩, hcs c hc, rfl⟩).2
  exact resampled_pixel R g1 g2 Gx Gy (fun i j => m (pixelAddress in_ bi i j c)) hM0
    (fun i j hi hj => hM _ ⟨i, j, c, hi, hj, hcs c hc, rfl⟩) hΩ

/-- C84: if all pixels of the input (of a channel) have the value `v`, the exact result is `v`. -/
theorem C84_ideal_constant (in_ : Image3) (bi : Int) (m : Mem F) (wx wy : Int → F) (c : Int) (v : ℚ)
    (hx : weightSum val in_.x.val.toInterval wx ≠ 0) (hy : weightSum val in_.y.val.toInterval wy ≠ 0)
    (hv : ∀ x y, inRangeOf in_.x x → inRangeOf in_.y y → val (m (pixelAddress in_ bi x y c)) = v) :
    idealPixel val in_ bi m wx wy c = v := by
  unfold idealPixel
  rw [div_eq_iff (mul_ne_zero hx hy)]
  unfold weightSum
  rw [Finset.sum_mul_sum, Finset.mul_sum]
  refine Finset.sum_congr rfl fun i hi => ?_
  rw [Finset.mul_sum]
  refine Finset.sum_congr rfl fun j hj => ?_
  rw [hv i j (Finset.mem_Ico.1 hi) (Finset.mem_Ico.1 hj)]
  ring

/-- C84: if no value of the kernels is negative, the exact result is between the smallest and the largest pixel of the
input (of a channel), and `condition` is 1. -/
theorem C84_ideal_range (in_ : Image3) (bi : Int) (m : Mem F) (wx wy : Int → F) (c : Int) (lo hi : ℚ)
    (hx : weightSum val in_.x.val.toInterval wx ≠ 0) (hy : weightSum val in_.y.val.toInterval wy ≠ 0)
    (hwx : ∀ x, inRangeOf in_.x x → 0 ≤ val (wx x)) (hwy : ∀ y, inRangeOf in_.y y → 0 ≤ val (wy y))
    (hm : ∀ x y, inRangeOf in_.x x → inRangeOf in_.y y →
      lo ≤ val (m (pixelAddress in_ bi x y c)) ∧ val (m (pixelAddress in_ bi x y c)) ≤ hi) :
    (lo ≤ idealPixel val in_ bi m wx wy c ∧ idealPixel val in_ bi m wx wy c ≤ hi) ∧
    condition val in_.x.val.toInterval wx = 1 ∧ condition val in_.y.val.toInterval wy = 1 := by
  have h1 : 0 ≤ weightSum val in_.x.val.toInterval wx := Finset.sum_nonneg fun i h => hwx i (Finset.mem_Ico.1 h)
  have h2 : 0 ≤ weightSum val in_.y.val.toInterval wy := Finset.sum_nonneg fun i h => hwy i (Finset.mem_Ico.1 h)
  have h3 := mul_pos (lt_of_le_of_ne h1 hx.symm) (lt_of_le_of_ne h2 hy.symm)
  refine ⟨?_, condition_eq_one hx hwx, condition_eq_one hy hwy⟩
  unfold idealPixel
  rw [le_div_iff₀ h3, div_le_iff₀ h3]
  unfold weightSum
  rw [Finset.sum_mul_sum, Finset.mul_sum, Finset.mul_sum]
  constructor
  · refine Finset.sum_le_sum fun i hi => ?_
    rw [Finset.mul_sum]
    refine Finset.sum_le_sum fun j hj => ?_
    have a1 := (hm i j (Finset.mem_Ico.1 hi) (Finset.mem_Ico.1 hj)).1
    have a2 := mul_nonneg (hwx i (Finset.mem_Ico.1 hi)) (hwy j (Finset.mem_Ico.1 hj))
    nlinarith
  · refine Finset.sum_le_sum fun i hi => ?_
    rw [Finset.mul_sum]
    refine Finset.sum_le_sum fun j hj => ?_
    have a1 := (hm i j (Finset.mem_Ico.1 hi) (Finset.mem_Ico.1 hj)).2
    have a2 := mul_nonneg (hwx i (Finset.mem_Ico.1 hi)) (hwy j (Finset.mem_Ico.1 hj))
    nlinarith

theorem pow_mul_le_one {u : ℚ} (hu : 0 ≤ u) (k : Nat) : (1 + u) ^ k * (1 - k * u) ≤ 1 := by
  induction k with
  | zero => simp
  | succ k ih =>
    have h1 : 0 ≤ (1 + u) ^ k := by positivity
    rw [pow_succ]
    push_cast
    have : (1 + u) ^ k * (1 + u) * (1 - (k + 1) * u) = (1 + u) ^ k * (1 - k * u) - (1 + u) ^ k * ((k + 1) * u ^ 2) := by
      ring
    have h2 : 0 ≤ (1 + u) ^ k * (((k : ℚ) + 1) * u ^ 2) := by positivity
    linarith

/-- C84: a simpler bound for kernels without negative values; then `sumError` is less than 1. -/
theorem C84_simple {u η y : ℚ} (hu : 0 ≤ u) (hη : 0 ≤ η) (n : Nat) (hy : 0 ≤ y) (hn : (2 * n + 2 : Nat) * u < 1) :
    sumError u n 1 < 1 ∧ stageBound u η n 1 y ≤ ((1 + n * η) * y + n * η) / (1 - (2 * n + 2 : Nat) * u) := by
  have k1 := pow_mul_le_one hu n
  have k2 := pow_mul_le_one hu (n + 2)
  have hP1 : (1 : ℚ) ≤ (1 + u) ^ n := one_le_pow₀ (by linarith)
  push_cast at hn k2 ⊢
  rw [pow_add] at k2
  set P := (1 + u) ^ n with hP
  have hn0 : (0 : ℚ) ≤ n := by positivity
  have hnu : 0 ≤ n * u := by positivity
  have hP2 : P < 2 := by nlinarith
  have hs : sumError u n 1 = P - 1 := by unfold sumError; rw [← hP, mul_one]
  have hw : 0 < 1 - (2 * n + 2) * u := by linarith
  have a1 : 0 < 1 - n * u := by linarith
  have a2 : 0 < 1 - (n + 2) * u := by linarith
  have hK1 : P * (1 + u) ^ 2 ≤ (2 - P) / (1 - (2 * n + 2) * u) := by
    rw [le_div_iff₀ hw]
    have b1 : P * (1 + u) ^ 2 ≤ 1 / (1 - (n + 2) * u) := by rw [le_div_iff₀ a2]; exact k2
    have b2 : P ≤ 1 / (1 - n * u) := by rw [le_div_iff₀ a1]; exact k1
    have b3 : P * (1 + u) ^ 2 * (1 - (2 * n + 2) * u) ≤ 1 / (1 - (n + 2) * u) * (1 - (2 * n + 2) * u) :=
      mul_le_mul_of_nonneg_right b1 hw.le
    have b4 : 1 / (1 - (n + 2) * u) * (1 - (2 * n + 2) * u) ≤ 2 - 1 / (1 - n * u) := by
      rw [div_mul_eq_mul_div, one_mul, le_sub_iff_add_le, div_add_div _ _ a2.ne' a1.ne', div_le_iff₀ (mul_pos a2 a1)]
      have : 0 ≤ n * u * u := by positivity
      nlinarith
    linarith
  have hK2 : P * (1 + u) ≤ 1 / (1 - (2 * n + 2) * u) := by
    refine le_trans ?_ (hK1.trans (div_le_div_of_nonneg_right (by linarith) hw.le))
    have : P * (1 + u) ^ 2 = P * (1 + u) * (1 + u) := by ring
    rw [this]
    have : 0 ≤ P * (1 + u) := by positivity
    nlinarith
  have hK3 : P ≤ 1 / (1 - (2 * n + 2) * u) := le_trans (by nlinarith) hK2
  refine ⟨by rw [hs]; linarith, ?_⟩
  have h2P : 0 < 2 - P := by linarith
  have e : stageBound u η n 1 y = y * (P * (1 + u) ^ 2 / (2 - P)) + n * η * y * (P * (1 + u)) + n * η * P := by
    unfold stageBound tapError
    rw [hs, ← hP]
    have : 1 + (u + (P - 1)) / (1 - (P - 1)) = (1 + u) / (2 - P) := by
      rw [show 1 - (P - 1) = 2 - P by ring, one_add_div h2P.ne']
      congr 1
      ring
    rw [this]
    ring
  rw [e]
  have c1 : P * (1 + u) ^ 2 / (2 - P) ≤ 1 / (1 - (2 * n + 2) * u) := by
    rw [div_le_iff₀ h2P, div_mul_eq_mul_div, one_mul]
    exact hK1
  have c2 := mul_le_mul_of_nonneg_left c1 hy
  have c3 := mul_le_mul_of_nonneg_left hK2 (by positivity : 0 ≤ n * η * y)
  have c4 := mul_le_mul_of_nonneg_left hK3 (by positivity : 0 ≤ n * η)
  have e2 : ((1 + n * η) * y + n * η) / (1 - (2 * n + 2) * u) =
      y * (1 / (1 - (2 * n + 2) * u)) + n * η * y * (1 / (1 - (2 * n + 2) * u)) + n * η * (1 / (1 - (2 * n + 2) * u)) := by
    ring
  rw [e2]
  linarith

theorem quotientError_eq {u : ℚ} (hu1 : u < 1) : quotientError u = (3 * u + u ^ 2) / (1 - u) := by
  unfold quotientError
  rw [sub_eq_iff_eq_add, div_add_one (by linarith)]
  congr 1
  ring

/-- The quotient of two integers. -/
theorem Spec.RoundsFloat.quotient (R : RoundsFloat o Finite val u η Ω) (hu1 : u < 1) (n d : Int) (hd : 0 < d)
    (hn : |(n : ℚ)| ≤ Ω) (hd' : (d : ℚ) ≤ Ω) (hq : (1 + quotientError u) * |(n : ℚ) / d| ≤ Ω) :
    Finite (o.div (o.ofIndex n) (o.ofIndex d)) ∧
    |val (o.div (o.ofIndex n) (o.ofIndex d)) - n / d| ≤ quotientError u * |(n : ℚ) / d| + η := by
  have hu := R.unit
  have hdq : (0 : ℚ) < d := by exact_mod_cast hd
  have h1u : 0 < 1 - u := by linarith
  obtain ⟨fa, ea⟩ := R.ofIndex n hn
  obtain ⟨fb, eb⟩ := R.ofIndex d (by rw [abs_of_pos hdq]; exact hd')
  rw [abs_of_pos hdq] at eb
  set a := val (o.ofIndex n)
  set b := val (o.ofIndex d)
  have hb : (1 - u) * d ≤ b := by have := (abs_le.1 eb).1; linarith
  have hb0 : 0 < b := lt_of_lt_of_le (mul_pos h1u hdq) hb
  have ha : |a| ≤ (1 + u) * |(n : ℚ)| := by have := abs_sub_abs_le_abs_sub a n; linarith
  have hab : |a / b| ≤ (1 + u) / (1 - u) * |(n : ℚ) / d| := by
    rw [abs_div, abs_div, abs_of_pos hb0, abs_of_pos hdq, div_mul_div_comm]
    exact div_le_div₀ (by positivity) ha (mul_pos h1u hdq) hb
  have hω := quotientError_eq hu1
  have h2 : (1 + u) / (1 - u) ≤ 1 + quotientError u := by
    rw [hω, one_add_div h1u.ne']
    exact div_le_div_of_nonneg_right (by nlinarith) h1u.le
  obtain ⟨fq, eq⟩ := R.div _ _ fa fb hb0.ne' (hab.trans ((mul_le_mul_of_nonneg_right h2 (abs_nonneg _)).trans hq))
  refine ⟨fq, ?_⟩
  have e1 : a / b - n / d = ((a - n) * d - n * (b - d)) / (b * d) := by
    rw [div_sub_div _ _ hb0.ne' hdq.ne']
    congr 1
    ring
  have h3 : |a / b - n / d| ≤ 2 * u / (1 - u) * |(n : ℚ) / d| := by
    rw [e1, abs_div, abs_div, abs_of_pos (mul_pos hb0 hdq), abs_of_pos hdq, div_mul_div_comm]
    have n1 : |(a - n) * d - n * (b - d)| ≤ 2 * u * |(n : ℚ)| * d := by
      refine (abs_sub _ _).trans ?_
      rw [abs_mul, abs_mul, abs_of_pos hdq]
      have := mul_le_mul_of_nonneg_right ea hdq.le
      have := mul_le_mul_of_nonneg_left eb (abs_nonneg (n : ℚ))
      linarith
    rw [div_le_div_iff₀ (mul_pos hb0 hdq) (mul_pos h1u hdq)]
    have n2 : 2 * u * |(n : ℚ)| * d * ((1 - u) * d) ≤ 2 * u * |(n : ℚ)| * d * b :=
      mul_le_mul_of_nonneg_left hb (by positivity)
    have n3 := mul_le_mul_of_nonneg_right n1 (mul_pos h1u hdq).le
    linarith
  have e2 : val (o.div (o.ofIndex n) (o.ofIndex d)) - n / d =
      (val (o.div (o.ofIndex n) (o.ofIndex d)) - a / b) + (a / b - n / d) := by ring
  rw [e2]
  refine (abs_add_le _ _).trans ?_
  have h4 := mul_le_mul_of_nonneg_left hab hu
  have e3 : quotientError u * |(n : ℚ) / d| =
      u * ((1 + u) / (1 - u) * |(n : ℚ) / d|) + 2 * u / (1 - u) * |(n : ℚ) / d| := by
    rw [hω]
    ring
  rw [e3]
  linarith

theorem abs_toInt_le (b : BitVec 64) : |((b.toInt : Int) : ℚ)| ≤ 2 ^ 63 := by
  have h1 := BitVec.toInt_lt (x := b)
  have h2 := BitVec.le_toInt (x := b)
  rw [abs_le]
  constructor
  · have : (-(2 ^ 63) : Int) ≤ b.toInt := by simpa using h2
    exact_mod_cast this
  · have : b.toInt ≤ 2 ^ 63 := by have : b.toInt < 2 ^ 63 := by simpa using h1
                                  omega
    exact_mod_cast this

/-- C84: the values of the kernels: if a function on floating-point numbers is within `ε` of a function that changes by at
most `L` times the change of its argument, then the value for input `rx` is within `ε` and `L` times `positionError` of
the value of that function at the exact position. -/
theorem C84_weight (R : RoundsFloat o Finite val u η Ω) (hu1 : u ≤ 1 / 8) (hη1 : η ≤ 1) (hΩ : 2 ^ 67 ≤ Ω)
    (kernel : F → F) (K : ℚ → ℚ) (L ε : ℚ) (hL : ∀ s t, |K s - K t| ≤ L * |s - t|)
    (hk : ∀ s, Finite s → Finite (kernel s) ∧ |val (kernel s) - K (val s)| ≤ ε)
    (rate p : Rational) (hr : Canonical rate) (hr0 : 0 < value rate) (hp : Canonical p) (rx : Int) (hrx : |(rx : ℚ)| ≤ 2 ^ 63) :
    Finite (weight o kernel rate p rx) ∧
    |val (weight o kernel rate p rx) - K ((rx - value p) * min (value rate) 1)| ≤
      ε + L * positionError u η (|(rx : ℚ)| + |value p|) := by
  have hu := R.unit
  have hη := R.underflow
  have hω := quotientError_eq (by linarith : u < 1)
  have hω0 : 0 ≤ quotientError u := by rw [hω]; exact div_nonneg (by positivity) (by linarith)
  have hω1 : quotientError u ≤ 1 := by
    rw [hω, div_le_one (by linarith)]
    nlinarith
  have habs : ∀ r : Rational, Canonical r → |value r| ≤ 2 ^ 63 := by
    intro r hr
    unfold value
    have hd : (1 : ℚ) ≤ r.d.toInt := by exact_mod_cast hr.1
    rw [abs_div, abs_of_pos (by linarith : (0 : ℚ) < r.d.toInt)]
    refine (div_le_self (abs_nonneg _) hd).trans (abs_toInt_le _)
  have hquot : ∀ r : Rational, Canonical r →
      Finite (o.div (o.ofIndex r.n.toInt) (o.ofIndex r.d.toInt)) ∧
      |val (o.div (o.ofIndex r.n.toInt) (o.ofIndex r.d.toInt)) - value r| ≤ quotientError u * |value r| + η := by
    intro r hr
    refine R.quotient (by linarith) r.n.toInt r.d.toInt hr.1 ((abs_toInt_le _).trans (le_trans (by norm_num) hΩ))
      ((le_abs_self _).trans ((abs_toInt_le _).trans (le_trans (by norm_num) hΩ))) ?_
    have h1 := habs r hr
    have h2 : (1 + quotientError u) * |value r| ≤ 2 * 2 ^ 63 := mul_le_mul (by linarith) h1 (abs_nonneg _) (by norm_num)
    exact h2.trans (le_trans (by norm_num) hΩ)
  obtain ⟨fp, ep⟩ := hquot p hp
  obtain ⟨fr, er⟩ := hquot rate hr
  obtain ⟨fx, ex⟩ := R.ofIndex rx (hrx.trans (le_trans (by norm_num) hΩ))
  obtain ⟨fm, em⟩ := R.min _ _ fr R.one.1
  rw [R.one.2] at em
  have hp63 := habs p hp
  unfold weight
  set qp := o.div (o.ofIndex p.n.toInt) (o.ofIndex p.d.toInt)
  set qr := o.div (o.ofIndex rate.n.toInt) (o.ofIndex rate.d.toInt)
  set X := o.ofIndex rx
  set b := |(rx : ℚ)| + |value p| with hb
  have hb0 : 0 ≤ b := by positivity
  have hb64 : b ≤ 2 ^ 64 := by
    have : (2 : ℚ) ^ 64 = 2 ^ 63 + 2 ^ 63 := by norm_num
    linarith
  have hdist : |val X - val qp| ≤ b + (quotientError u * b + η) ∧
      |(val X - val qp) - (rx - value p)| ≤ quotientError u * b + η := by
    have huω : u ≤ quotientError u := by
      rw [hω, le_div_iff₀ (by linarith)]
      nlinarith
    have h2 : |(val X - val qp) - (rx - value p)| ≤ quotientError u * b + η := by
      have e : (val X - val qp) - (rx - value p) = (val X - rx) - (val qp - value p) := by ring
      rw [e]
      refine (abs_sub _ _).trans ?_
      have := mul_le_mul_of_nonneg_right huω (abs_nonneg (rx : ℚ))
      rw [hb, mul_add]
      linarith
    refine ⟨?_, h2⟩
    have h3 := abs_sub_abs_le_abs_sub (val X - val qp) (rx - value p)
    have h4 := abs_sub (rx : ℚ) (value p)
    linarith
  have hsub : |val X - val qp| ≤ Ω := by
    refine hdist.1.trans (le_trans ?_ hΩ)
    have := mul_le_mul_of_nonneg_right hω1 hb0
    have : (2 : ℚ) ^ 67 = 8 * 2 ^ 64 := by norm_num
    have : (1 : ℚ) ≤ 2 ^ 64 := by norm_num
    linarith
  obtain ⟨fd, ed⟩ := R.sub _ _ fx fp hsub
  set D := o.sub X qp
  have hD : |val D - (rx - value p)| ≤ distanceError u η b := by
    have e : val D - (rx - value p) = (val D - (val X - val qp)) + ((val X - val qp) - (rx - value p)) := by ring
    rw [e]
    refine (abs_add_le _ _).trans ?_
    have h1 := mul_le_mul_of_nonneg_left hdist.1 hu
    unfold distanceError
    linarith [hdist.2]
  have hD' : |val D| ≤ b + distanceError u η b := by
    have h3 := abs_sub_abs_le_abs_sub (val D) (rx - value p)
    have h4 := abs_sub (rx : ℚ) (value p)
    linarith
  have hdE0 : 0 ≤ distanceError u η b := (abs_nonneg _).trans hD
  have hr0' : |value rate| = value rate := abs_of_pos hr0
  rw [hr0'] at er
  have er' := abs_le.1 er
  have hscale : |val (o.min qr o.one)| ≤ 1 := by
    rw [em, abs_le]
    refine ⟨le_min ?_ (by norm_num), min_le_right _ _⟩
    have := mul_le_mul_of_nonneg_right hω1 hr0.le
    linarith
  have hscale' : |val (o.min qr o.one) - min (value rate) 1| ≤ quotientError u + η := by
    rw [em, abs_le]
    rcases le_total (value rate) 1 with h | h
    · rw [min_eq_left h]
      have h1 : quotientError u * value rate ≤ quotientError u := by nlinarith
      constructor
      · rw [le_sub_iff_add_le]
        exact le_min (by linarith) (by linarith)
      · have := min_le_left (val qr) 1
        linarith
    · rw [min_eq_right h]
      have h1 : (1 - quotientError u) * 1 ≤ (1 - quotientError u) * value rate :=
        mul_le_mul_of_nonneg_left h (by linarith)
      constructor
      · rw [le_sub_iff_add_le]
        exact le_min (by linarith) (by linarith)
      · have := min_le_right (val qr) 1
        linarith
  set S := o.min qr o.one
  have hDΩ : b + distanceError u η b ≤ Ω := by
    refine le_trans ?_ hΩ
    unfold distanceError
    have h1 : (1 + u) * (1 + quotientError u) - 1 ≤ 3 := by nlinarith
    have h2 := mul_le_mul_of_nonneg_right h1 hb0
    have h3 : (1 + u) * η ≤ 2 := by nlinarith
    have : (2 : ℚ) ^ 67 = 8 * 2 ^ 64 := by norm_num
    have : (1 : ℚ) ≤ 2 ^ 64 := by norm_num
    linarith
  have hprod : |val D * val S| ≤ b + distanceError u η b := by
    rw [abs_mul]
    refine le_trans (mul_le_mul hD' hscale (abs_nonneg _) (by linarith)) (by rw [mul_one])
  obtain ⟨fs, es⟩ := R.mul D S fd fm (hprod.trans hDΩ)
  obtain ⟨fk, ek⟩ := hk _ fs
  refine ⟨fk, ?_⟩
  have hpos : |val (o.mul D S) - (rx - value p) * min (value rate) 1| ≤ positionError u η b := by
    have e : val (o.mul D S) - (rx - value p) * min (value rate) 1 = (val (o.mul D S) - val D * val S) +
        (val D * (val S - min (value rate) 1) + (val D - (rx - value p)) * min (value rate) 1) := by ring
    rw [e]
    refine (abs_add_le _ _).trans ?_
    have h1 := abs_add_le (val D * (val S - min (value rate) 1)) ((val D - (rx - value p)) * min (value rate) 1)
    have h2 : |val D * (val S - min (value rate) 1)| ≤ (b + distanceError u η b) * (quotientError u + η) := by
      rw [abs_mul]
      exact mul_le_mul hD' hscale' (abs_nonneg _) (by linarith)
    have h3 : |(val D - (rx - value p)) * min (value rate) 1| ≤ distanceError u η b := by
      rw [abs_mul]
      have : |min (value rate) 1| ≤ 1 := by
        rw [abs_le]
        exact ⟨le_min (by linarith) (by norm_num), min_le_right _ _⟩
      calc |val D - (rx - value p)| * |min (value rate) 1| ≤ distanceError u η b * 1 :=
            mul_le_mul hD this (abs_nonneg _) hdE0
        _ = _ := mul_one _
    have h4 := mul_le_mul_of_nonneg_left hprod hu
    unfold positionError
    linarith
  have hL0 : 0 ≤ L := by
    have := (abs_nonneg _).trans (hL 0 1)
    simpa using this
  have e : val (kernel (o.mul D S)) - K ((rx - value p) * min (value rate) 1) =
      (val (kernel (o.mul D S)) - K (val (o.mul D S))) +
      (K (val (o.mul D S)) - K ((rx - value p) * min (value rate) 1)) := by ring
  rw [e]
  refine (abs_add_le _ _).trans ?_
  have h1 := hL (val (o.mul D S)) ((rx - value p) * min (value rate) 1)
  have h2 := mul_le_mul_of_nonneg_left hpos hL0
  linarith

/-- C84: `positionError` is about eight roundings. -/
theorem C84_position {u η b : ℚ} (hu : 0 ≤ u) (hu1 : u ≤ 1 / 1000) (hη : 0 ≤ η) (hη1 : η ≤ 1 / 1000) (hb : 0 ≤ b) :
    positionError u η b ≤ (9 * u + 2 * η) * b + 3 * η := by
  have hω := quotientError_eq (by linarith : u < 1)
  have hω1 : quotientError u ≤ 301 / 100 * u := by
    rw [hω, div_le_iff₀ (by linarith)]
    nlinarith
  have hω0 : 0 ≤ quotientError u := by rw [hω]; exact div_nonneg (by positivity) (by linarith)
  have h1 : (1 + u) * (1 + quotientError u) - 1 ≤ 402 / 100 * u := by nlinarith
  have hD : distanceError u η b ≤ 402 / 100 * u * b + 1001 / 1000 * η := by
    unfold distanceError
    have := mul_le_mul_of_nonneg_right h1 hb
    nlinarith
  have hD1 : b + distanceError u η b ≤ 1005 / 1000 * b + 1001 / 1000 * η := by nlinarith
  have hD0 : 0 ≤ distanceError u η b := by unfold distanceError; nlinarith [mul_nonneg hu hω0, mul_nonneg (by nlinarith : 0 ≤ (1 + u) * (1 + quotientError u) - 1) hb]
  have h2 : (b + distanceError u η b) * (quotientError u + η + u) ≤
      (1005 / 1000 * b + 1001 / 1000 * η) * (401 / 100 * u + η) :=
    mul_le_mul hD1 (by linarith) (by linarith) (by positivity)
  unfold positionError
  have h3 : 0 ≤ b * u := by positivity
  have h4 : 0 ≤ b * η := by positivity
  have h5 : η * u ≤ 1 / 1000 * η := by nlinarith
  have h6 : η * η ≤ 1 / 1000 * η := by nlinarith
  nlinarith

/-- C84: binary32. -/
theorem C84_float : RoundsFloat float32 IsFloat (fun x => x.getD 0) ((2 : ℚ)⁻¹ ^ 24) ((2 : ℚ) ^ (-150 : Int)) largestFloat :=
  binaryFloatOps_rounds roundEven_nearest (N := 2 ^ 24 - 1) (E := 104) (by norm_num) (by norm_num) (by norm_num) rfl
    (by norm_num) (by unfold largestFloat; norm_num)

/-- C84: the linear kernel in binary32. -/
theorem C84_linear (s : Option ℚ) (hs : IsFloat s) :
    IsFloat (linearFloat s) ∧ |(linearFloat s).getD 0 - max 0 (1 - |s.getD 0|)| ≤ (2 : ℚ)⁻¹ ^ 24 ∧
    0 ≤ (linearFloat s).getD 0 := by
  obtain ⟨n, e, he, hn, rfl, hΩ⟩ := hs
  have ha : IsFloat (some |(n : ℚ) * (2 : ℚ) ^ e|) := by
    refine ⟨|n|, e, he, by rwa [abs_abs], ?_, ?_⟩
    · rw [abs_mul, abs_of_pos (two_zpow_pos e), Int.cast_abs]
    · rw [Int.cast_abs]
      rw [abs_mul, abs_of_pos (two_zpow_pos e)] at hΩ
      rwa [abs_mul, abs_abs, abs_of_pos (two_zpow_pos e)]
  set x : ℚ := n * (2 : ℚ) ^ e
  have hL1 : (1 : ℚ) ≤ largestFloat := by unfold largestFloat; norm_num
  obtain ⟨f, h⟩ := C84_float.sub (some 1) (some |x|) C84_float.one.1 ha (by
    simp only [Option.getD_some]
    rw [abs_le]
    have := abs_nonneg x
    constructor <;> linarith)
  simp only [Option.getD_some] at h
  have e1 : linearFloat (some x) = (float32.sub (some 1) (some |x|)).map fun x => max 0 x := rfl
  rw [e1]
  obtain ⟨n', e', he', hn', hd, hΩ'⟩ := f
  rw [hd] at h ⊢
  simp only [Option.map_some, Option.getD_some] at h ⊢
  set y : ℚ := n' * (2 : ℚ) ^ e' with hy
  have h24 : (2 : ℚ)⁻¹ ^ 24 ≤ 1 := by norm_num
  have h240 : (0 : ℚ) ≤ (2 : ℚ)⁻¹ ^ 24 := by positivity
  refine ⟨?_, ?_, le_max_left ..⟩
  · rcases le_total y 0 with h0 | h0
    · rw [max_eq_left h0]
      exact C84_float.zero.1
    · rw [max_eq_right h0]
      exact ⟨n', e', he', hn', rfl, hΩ'⟩
  · have h' := abs_le.1 h
    rcases le_total (1 - |x|) 0 with h0 | h0
    · rw [abs_of_nonpos h0] at h'
      have : y ≤ 0 := by nlinarith
      rw [max_eq_left this, max_eq_left h0]
      simpa using h240
    · have hx := abs_nonneg x
      rw [abs_of_nonneg h0] at h'
      have : 0 ≤ y := by nlinarith
      rw [max_eq_right this, max_eq_right h0, abs_le]
      constructor <;> nlinarith

/-- C84: the weights of the linear kernel in binary32. -/
theorem C84_linear_weight (rate p : Rational) (hr : Canonical rate) (hr0 : 0 < value rate) (hp : Canonical p) (rx : Int)
    (hrx : |(rx : ℚ)| ≤ 2 ^ 63) :
    IsFloat (weight float32 linearFloat rate p rx) ∧ 0 ≤ (weight float32 linearFloat rate p rx).getD 0 ∧
    |(weight float32 linearFloat rate p rx).getD 0 - max 0 (1 - |(rx - value p) * min (value rate) 1|)| ≤
      (2 : ℚ)⁻¹ ^ 24 * (1 + 10 * (|(rx : ℚ)| + |value p|)) + 3 * (2 : ℚ) ^ (-150 : Int) := by
  have hη : (2 : ℚ) ^ (-150 : Int) ≤ 1 / 1000 * (2 : ℚ)⁻¹ ^ 24 := by norm_num
  have hη0 := (two_zpow_pos (-150)).le
  set η := (2 : ℚ) ^ (-150 : Int) with hηd
  have hu : (2 : ℚ)⁻¹ ^ 24 ≤ 1 / 1000 := by norm_num
  have hu0 : (0 : ℚ) ≤ (2 : ℚ)⁻¹ ^ 24 := by positivity
  obtain ⟨h1, h2⟩ := C84_weight C84_float (by linarith) (hη.trans (by norm_num)) (by unfold largestFloat; norm_num) linearFloat
    (fun s => max 0 (1 - |s|)) 1 ((2 : ℚ)⁻¹ ^ 24)
    (fun s t => by
      have h := abs_le.1 (abs_abs_sub_abs_le s t)
      rw [one_mul, abs_le]
      constructor
      · rw [le_sub_iff_add_le]
        rcases le_total 0 (1 - |t|) with ht | ht
        · rw [max_eq_right ht]
          exact le_trans (by linarith) (le_max_right ..)
        · rw [max_eq_left ht]
          exact le_trans (by linarith [abs_nonneg (s - t)]) (le_max_left ..)
      · rw [sub_le_iff_le_add]
        refine max_le ?_ ?_
        · have := le_max_left 0 (1 - |t|)
          linarith [abs_nonneg (s - t)]
        · have := le_max_right 0 (1 - |t|)
          linarith)
    (fun s hs => ⟨(C84_linear s hs).1, (C84_linear s hs).2.1⟩) rate p hr hr0 hp rx hrx
  refine ⟨h1, ?_, h2.trans ?_⟩
  · unfold weight
    cases float32.mul (float32.sub (float32.ofIndex rx) (float32.div (float32.ofIndex p.n.toInt) (float32.ofIndex p.d.toInt)))
        (float32.min (float32.div (float32.ofIndex rate.n.toInt) (float32.ofIndex rate.d.toInt)) float32.one) with
    | none => exact le_rfl
    | some s =>
      show 0 ≤ ((float32.sub (some 1) (some |s|)).map fun x => max 0 x).getD 0
      cases float32.sub (some 1) (some |s|) with
      | none => exact le_rfl
      | some y => exact le_max_left ..
  · have hb : 0 ≤ |(rx : ℚ)| + |value p| := by positivity
    have h3 := C84_position hu0 hu hη0 (hη.trans (by norm_num)) hb
    have h4 : (9 * (2 : ℚ)⁻¹ ^ 24 + 2 * η) * (|(rx : ℚ)| + |value p|) ≤ 10 * (2 : ℚ)⁻¹ ^ 24 * (|(rx : ℚ)| + |value p|) :=
      mul_le_mul_of_nonneg_right (by linarith) hb
    linarith

/-- C84: the error grows with the coordinates: at `2^24 + 1/4`, the linear kernel gives both neighbours the weight 1
instead of 3/4 and 1/4. -/
theorem C84_weight_counterexample :
    Canonical ⟨67108865#64, 4#64⟩ ∧ value ⟨67108865#64, 4#64⟩ = 16777216 + 1 / 4 ∧
    weight float32 linearFloat ⟨2#64, 1#64⟩ ⟨67108865#64, 4#64⟩ 16777216 = some 1 ∧
    weight float32 linearFloat ⟨2#64, 1#64⟩ ⟨67108865#64, 4#64⟩ 16777217 = some 1 := by
  refine ⟨⟨by decide, by decide⟩, by decide +kernel, by decide +kernel, by decide +kernel⟩

/-- For coordinates below 1000, the weights are within 0.0012 of the exact ones. -/
example (p : Rational) (hp : Canonical p) (hp1 : |value p| ≤ 1000) (rx : Int) (h : |(rx : ℚ)| ≤ 1000) :
    |(weight float32 linearFloat ⟨1#64, 2#64⟩ p rx).getD 0 - max 0 (1 - |(rx - value p) * (1 / 2)|)| ≤ 12 / 10000 := by
  obtain ⟨-, -, h3⟩ := C84_linear_weight ⟨1#64, 2#64⟩ p ⟨by decide, by decide⟩ (by decide +kernel) hp rx
    (h.trans (by norm_num))
  have e : min (value ⟨1#64, 2#64⟩) 1 = 1 / 2 := by decide +kernel
  rw [e] at h3
  have hη : 3 * (2 : ℚ) ^ (-150 : Int) ≤ 1 / 10 ^ 10 := by norm_num
  norm_num at h3 hη ⊢
  linarith

/-- C84: kernels without negative values. -/
theorem C84_nonneg {n : Nat} {v : Interval} {w : Int → F} (hu : 0 ≤ u) (hn : (4 * n + 4 : Nat) * u ≤ 1) (hΩ : 2 ≤ Ω)
    (hfin : ∀ i, InInterval v i → Finite (w i)) (hw : ∀ i, InInterval v i → 0 ≤ val (w i))
    (hsupport : ∀ i j, InInterval v i → InInterval v j → val (w i) ≠ 0 → val (w j) ≠ 0 → j - i < n)
    (hsum : weightSum val v w ≠ 0) (hsize : 2 * weightSum val v w ≤ Ω) : GoodWeights Finite val u Ω n v w := by
  have hc := condition_eq_one hsum hw
  have k1 := pow_mul_le_one hu n
  have hnu : 0 ≤ (n : ℚ) * u := by positivity
  have hP : (1 + u) ^ n ≤ 4 / 3 := by
    push_cast at hn
    have : 0 ≤ (1 + u) ^ n := by positivity
    nlinarith
  have hs : sumError u n 1 = (1 + u) ^ n - 1 := by unfold sumError; rw [mul_one]
  refine ⟨hfin, hsupport, hsum, by rw [hc, hs]; linarith, ?_, ?_⟩
  · have e : ∑ i ∈ spanOf v, |val (w i)| = weightSum val v w :=
      Finset.sum_congr rfl fun i hi => abs_of_nonneg (hw i (Finset.mem_Ico.1 hi))
    have h0 : 0 ≤ weightSum val v w := Finset.sum_nonneg fun i hi => hw i (Finset.mem_Ico.1 hi)
    rw [e]
    nlinarith
  · rw [hc, hs, div_le_iff₀ (by linarith)]
    nlinarith

theorem abs_sum_div_le {ι : Type} (s : Finset ι) (b x : ι → ℚ) (B : ℚ) {Z : ℚ} (hx : ∀ i ∈ s, |x i| ≤ Z) :
    |(∑ i ∈ s, b i * x i) / B| ≤ Z * ((∑ i ∈ s, |b i|) / |B|) := by
  rw [abs_div, ← mul_div_assoc]
  refine div_le_div_of_nonneg_right ?_ (abs_nonneg _)
  rw [Finset.mul_sum]
  refine (Finset.abs_sum_le_sum_abs _ _).trans (Finset.sum_le_sum fun i hi => ?_)
  rw [abs_mul, mul_comm]
  exact mul_le_mul_of_nonneg_right (hx i hi) (abs_nonneg _)

theorem mean_change {ι : Type} (s : Finset ι) (a b x : ι → ℚ) (hA : ∑ i ∈ s, a i ≠ 0) (hB : ∑ i ∈ s, b i ≠ 0) {Z δ : ℚ}
    (hZ : 0 ≤ Z) (hx : ∀ i ∈ s, |x i| ≤ Z) (hδ : ∑ i ∈ s, |a i - b i| ≤ δ) :
    |(∑ i ∈ s, a i * x i) / (∑ i ∈ s, a i) - (∑ i ∈ s, b i * x i) / ∑ i ∈ s, b i| ≤
      Z * (δ * (1 + (∑ i ∈ s, |b i|) / |∑ i ∈ s, b i|) / |∑ i ∈ s, a i|) := by
  have e : (∑ i ∈ s, a i * x i) / (∑ i ∈ s, a i) - (∑ i ∈ s, b i * x i) / (∑ i ∈ s, b i) =
      (∑ i ∈ s, (a i - b i) * x i) / (∑ i ∈ s, a i) +
      (∑ i ∈ s, b i * x i) / (∑ i ∈ s, b i) * ((∑ i ∈ s, (b i - a i)) / ∑ i ∈ s, a i) := by
    simp only [sub_mul, Finset.sum_sub_distrib]
    field_simp
    ring
  rw [e]
  refine (abs_add_le _ _).trans ?_
  have h1 := abs_sum_div_le s (fun i => a i - b i) x (∑ i ∈ s, a i) hx
  have h2 := abs_sum_div_le s b x (∑ i ∈ s, b i) hx
  have hA' : 0 < |∑ i ∈ s, a i| := abs_pos.2 hA
  have h3 : |(∑ i ∈ s, (b i - a i)) / ∑ i ∈ s, a i| ≤ δ / |∑ i ∈ s, a i| := by
    rw [abs_div]
    refine div_le_div_of_nonneg_right ((Finset.abs_sum_le_sum_abs _ _).trans (le_trans (le_of_eq ?_) hδ)) hA'.le
    exact Finset.sum_congr rfl fun i _ => abs_sub_comm _ _
  have h4 : (∑ i ∈ s, |a i - b i|) / |∑ i ∈ s, a i| ≤ δ / |∑ i ∈ s, a i| := div_le_div_of_nonneg_right hδ hA'.le
  rw [abs_mul]
  have h5 := mul_le_mul h2 h3 (abs_nonneg _) ((abs_nonneg _).trans h2)
  have h6 := mul_le_mul_of_nonneg_left h4 hZ
  have e2 : Z * (δ * (1 + (∑ i ∈ s, |b i|) / |∑ i ∈ s, b i|) / |∑ i ∈ s, a i|) = Z * (δ / |∑ i ∈ s, a i|) +
      Z * ((∑ i ∈ s, |b i|) / |∑ i ∈ s, b i|) * (δ / |∑ i ∈ s, a i|) := by ring
  rw [e2]
  linarith

/-- C84: what errors of the values of the kernels change: if the values of the kernels are `δx` and `δy` away, in total,
from `Kx` and `Ky`, how far the weighted means are apart. -/
theorem C84_kernel (in_ : Image3) (bi : Int) (m : Mem F) (wx wy : Int → F) (Kx Ky : Int → ℚ) (c : Int) {δx δy M : ℚ}
    (hwx : weightSum val in_.x.val.toInterval wx ≠ 0) (hwy : weightSum val in_.y.val.toInterval wy ≠ 0)
    (hKx : weightSum id in_.x.val.toInterval Kx ≠ 0) (hKy : weightSum id in_.y.val.toInterval Ky ≠ 0)
    (hδx : ∑ i ∈ spanOf in_.x.val.toInterval, |val (wx i) - Kx i| ≤ δx)
    (hδy : ∑ i ∈ spanOf in_.y.val.toInterval, |val (wy i) - Ky i| ≤ δy) (hM0 : 0 ≤ M)
    (hM : ∀ x y, inRangeOf in_.x x → inRangeOf in_.y y → |val (m (pixelAddress in_ bi x y c))| ≤ M) :
    |idealPixel val in_ bi m wx wy c - idealPixel id in_ bi (fun p => val (m p)) Kx Ky c| ≤
      M * (condition val in_.y.val.toInterval wy *
          (δx * (1 + condition id in_.x.val.toInterval Kx) / |weightSum val in_.x.val.toInterval wx|) +
        condition id in_.x.val.toInterval Kx *
          (δy * (1 + condition id in_.y.val.toInterval Ky) / |weightSum val in_.y.val.toInterval wy|)) := by
  have ideal : ∀ {G : Type} (val : G → ℚ) (m : Mem G) (wx wy : Int → G), idealPixel val in_ bi m wx wy c =
      (∑ i ∈ spanOf in_.x.val.toInterval, val (wx i) * ((∑ j ∈ spanOf in_.y.val.toInterval,
        val (wy j) * val (m (pixelAddress in_ bi i j c))) / weightSum val in_.y.val.toInterval wy)) /
        weightSum val in_.x.val.toInterval wx := by
    intro G val m wx wy
    unfold idealPixel
    rw [mul_comm (weightSum val in_.x.val.toInterval wx), ← div_div, Finset.sum_div]
    congr 1
    refine Finset.sum_congr rfl fun i _ => ?_
    rw [← mul_div_assoc, Finset.mul_sum]
    congr 1
    exact Finset.sum_congr rfl fun j _ => by ring
  rw [ideal val, ideal id]
  simp only [id]
  set r : Int → ℚ := fun i => (∑ j ∈ spanOf in_.y.val.toInterval, val (wy j) * val (m (pixelAddress in_ bi i j c))) /
    weightSum val in_.y.val.toInterval wy
  set q : Int → ℚ := fun i => (∑ j ∈ spanOf in_.y.val.toInterval, Ky j * val (m (pixelAddress in_ bi i j c))) /
    weightSum id in_.y.val.toInterval Ky
  have hr : ∀ i ∈ spanOf in_.x.val.toInterval, |r i| ≤ M * condition val in_.y.val.toInterval wy := fun i hi =>
    abs_sum_div_le _ _ _ _ fun j hj => hM i j (Finset.mem_Ico.1 hi) (Finset.mem_Ico.1 hj)
  have hrq : ∀ i ∈ spanOf in_.x.val.toInterval, |r i - q i| ≤
      M * (δy * (1 + condition id in_.y.val.toInterval Ky) / |weightSum val in_.y.val.toInterval wy|) := fun i hi =>
    mean_change _ (fun j => val (wy j)) Ky (fun j => val (m (pixelAddress in_ bi i j c))) hwy hKy hM0
      (fun j hj => hM i j (Finset.mem_Ico.1 hi) (Finset.mem_Ico.1 hj)) hδy
  have hc := Spec.GoodWeights.condition_nonneg (val := val) in_.y.val.toInterval wy
  have h1 := mean_change (spanOf in_.x.val.toInterval) (fun i => val (wx i)) Kx r hwx hKx (mul_nonneg hM0 hc) hr hδx
  have h2 := abs_sum_div_le (spanOf in_.x.val.toInterval) Kx (fun i => r i - q i) (weightSum id in_.x.val.toInterval Kx) hrq
  have e : (∑ i ∈ spanOf in_.x.val.toInterval, val (wx i) * r i) / weightSum val in_.x.val.toInterval wx -
      (∑ i ∈ spanOf in_.x.val.toInterval, Kx i * q i) / weightSum id in_.x.val.toInterval Kx =
      ((∑ i ∈ spanOf in_.x.val.toInterval, val (wx i) * r i) / weightSum val in_.x.val.toInterval wx -
        (∑ i ∈ spanOf in_.x.val.toInterval, Kx i * r i) / weightSum id in_.x.val.toInterval Kx) +
      (∑ i ∈ spanOf in_.x.val.toInterval, Kx i * (r i - q i)) / weightSum id in_.x.val.toInterval Kx := by
    simp only [mul_sub, Finset.sum_sub_distrib, sub_div]
    ring
  rw [e]
  refine (abs_add_le _ _).trans ((add_le_add h1 h2).trans (le_of_eq ?_))
  unfold condition weightSum
  simp only [id]
  ring

/-- C84: enlarging or reducing 8-bit images (values up to 255) in binary32 with a kernel that has no negative values and
at most four of them other than zero, such as the linear kernel unless an image is reduced to less than half its size: each
pixel is within 0.00031 of the weighted mean. -/
theorem C84_example (in_ out : Image3) (bi bo : Int) (rateX rateY : Rational)
    (kernel : Option ℚ → Option ℚ) (ax ay : Int → Int) (buf : Interval → Nat → Int) (m : Mem (Option ℚ))
    (hbi : in_.base = some bi) (hbo : out.base = some bo)
    (hin : ProperDim in_.x ∧ ProperDim in_.y ∧ ProperDim in_.c)
    (hout : ProperDim out.x ∧ ProperDim out.y ∧ ProperDim out.c)
    (h64 : 64 ≤ out.y.val.extent)
    (hcs : ∀ c, inRangeOf out.c c → inRangeOf in_.c c)
    (hfit1 : 64 * in_.x.val.extent * out.c.val.extent ≤ 9223372036854775807)
    (hfit2 : 64 * out.x.val.extent * out.c.val.extent ≤ 9223372036854775807)
    (hkx : ∀ x, inRangeOf out.x x → ∃ p, kernelPosition x rateX = some p ∧
      GoodWeights IsFloat (fun x => x.getD 0) ((2 : ℚ)⁻¹ ^ 24) largestFloat 4 in_.x.val.toInterval
        (weight float32 kernel rateX p) ∧ ∀ i, inRangeOf in_.x i → 0 ≤ (weight float32 kernel rateX p i).getD 0)
    (hky : ∀ y, inRangeOf out.y y → ∃ p, kernelPosition y rateY = some p ∧
      GoodWeights IsFloat (fun x => x.getD 0) ((2 : ℚ)⁻¹ ^ 24) largestFloat 4 in_.y.val.toInterval
        (weight float32 kernel rateY p) ∧ ∀ i, inRangeOf in_.y i → 0 ≤ (weight float32 kernel rateY p i).getD 0)
    (hsep : ∀ kx ky, buildKernels float32 in_.x.val.toInterval out.x.val.toInterval rateX kernel = some kx →
      buildKernels float32 in_.y.val.toInterval out.y.val.toInterval rateY kernel = some ky →
      SeparateObjects in_ out bi bo kx ky ax ay buf)
    (hM : ∀ p, PixelOf in_ bi p → IsFloat (m p) ∧ |(m p).getD 0| ≤ 255) (debug : Bool) :
    ∃ m', resample float32 debug in_ out rateX rateY kernel ax ay buf m = some m' ∧
      ∀ x y c px py, inRangeOf out.x x → inRangeOf out.y y → inRangeOf out.c c →
        kernelPosition x rateX = some px → kernelPosition y rateY = some py →
        IsFloat (m' (pixelAddress out bo x y c)) ∧
        |(m' (pixelAddress out bo x y c)).getD 0 - idealPixel (fun x => x.getD 0) in_ bi m
          (weight float32 kernel rateX px) (weight float32 kernel rateY py) c| ≤ 31 / 100000 := by
  obtain ⟨m', e, h⟩ := C84_resample C84_float in_ out bi bo rateX rateY kernel ax ay buf m hbi hbo hin hout h64 hcs
    hfit1 hfit2 4 4 (fun x hx => by obtain ⟨p, h1, h2, -⟩ := hkx x hx; exact ⟨p, h1, h2⟩)
    (fun y hy => by obtain ⟨p, h1, h2, -⟩ := hky y hy; exact ⟨p, h1, h2⟩) hsep 255 hM debug
  refine ⟨m', e, fun x y c px py hx hy hc hpx hpy => ?_⟩
  have cx : condition (fun x : Option ℚ => x.getD 0) in_.x.val.toInterval (weight float32 kernel rateX px) = 1 := by
    obtain ⟨p, h1, h2, h3⟩ := hkx x hx
    obtain rfl : px = p := Option.some.inj (hpx.symm.trans h1)
    exact condition_eq_one h2.sum h3
  have cy : condition (fun x : Option ℚ => x.getD 0) in_.y.val.toInterval (weight float32 kernel rateY py) = 1 := by
    obtain ⟨p, h1, h2, h3⟩ := hky y hy
    obtain rfl : py = p := Option.some.inj (hpy.symm.trans h1)
    exact condition_eq_one h2.sum h3
  have key := h x y c px py hx hy hc hpx hpy
  rw [cx, cy, mul_one, mul_one] at key
  have hη : (2 : ℚ) ^ (-150 : Int) ≤ 1 / 10 ^ 40 := by norm_num
  have hη0 := (two_zpow_pos (-150)).le
  have hu0 : (0 : ℚ) ≤ (2 : ℚ)⁻¹ ^ 24 := by positivity
  obtain ⟨s1, b1⟩ := C84_simple (y := 255) hu0 hη0 4 (by norm_num) (by norm_num)
  have hlow := stageBound_mono (n := 4) (cond := 1) (y := 255) hu0 hη0 le_rfl s1 (by norm_num)
  obtain ⟨-, b2⟩ := C84_simple (y := stageBound ((2 : ℚ)⁻¹ ^ 24) ((2 : ℚ) ^ (-150 : Int)) 4 1 255) hu0 hη0 4
    (le_trans (by norm_num) hlow) (by norm_num)
  set η := (2 : ℚ) ^ (-150 : Int)
  set y1 := stageBound ((2 : ℚ)⁻¹ ^ 24) η 4 1 255
  set y2 := stageBound ((2 : ℚ)⁻¹ ^ 24) η 4 1 y1
  rw [le_div_iff₀ (by norm_num)] at b1 b2
  norm_num at b1 b2 hη
  have c1 : y1 ≤ 255 + 153 / 1000000 := by linarith
  have c2 : y2 ≤ 255 + 31 / 100000 := by
    have : η * y1 ≤ 1 / 10 ^ 37 := by nlinarith
    nlinarith
  obtain ⟨k1, k2⟩ := key (c2.trans (by unfold largestFloat; norm_num))
  exact ⟨k1, k2.trans (by linarith)⟩

/-- The weights of the linear kernel for outputs `0, ..., n - 1` and inputs `0, ..., 7`. -/
theorem linearFloat_example (n : Int) (rate : Rational) (hr : Canonical rate) (hr0 : 0 < value rate)
    (hn : n ≤ 100) (hr1 : rate.n.toInt ≤ 100) (hr2 : rate.d.toInt ≤ 100) (pos : Int → Rational)
    (h : ∀ x ∈ Finset.Ico 0 n, (0 < (pos x).d.toInt ∧ Int.gcd (pos x).n.toInt (pos x).d.toInt = 1) ∧
      value (pos x) = (x + 1 / 2) / value rate - 1 / 2 ∧
      (∀ i ∈ Finset.Ico (0 : Int) 8, (weight float32 linearFloat rate (pos x) i).getD 0 ≠ 0 → |i - value (pos x)| ≤ 19 / 10) ∧
      1 / 2 ≤ (∑ i ∈ Finset.Ico (0 : Int) 8, (weight float32 linearFloat rate (pos x) i).getD 0) ∧
      (∑ i ∈ Finset.Ico (0 : Int) 8, (weight float32 linearFloat rate (pos x) i).getD 0) ≤ 4) :
    ∀ x, InInterval ⟨0, n⟩ x → ∃ p, kernelPosition x rate = some p ∧
      GoodWeights IsFloat (fun x => x.getD 0) ((2 : ℚ)⁻¹ ^ 24) largestFloat 4 ⟨0, 8⟩
        (weight float32 linearFloat rate p) ∧
      ∀ i, InInterval ⟨0, 8⟩ i → 0 ≤ (weight float32 linearFloat rate p i).getD 0 := by
  intro x hx
  have hx' : x ∈ Finset.Ico 0 n := by
    unfold InInterval at hx
    simp only at hx
    exact Finset.mem_Ico.2 (by omega)
  obtain ⟨c1, c4, c2, c3⟩ := h x hx'
  obtain ⟨p, hp, p2, p3⟩ := C46_position x rate hr hr0 (by
    unfold InInterval at hx
    simp only at hx
    rw [abs_lt]
    constructor <;> omega) (by omega) (by omega)
  have hpe : pos x = p := (C45_canonical_unique p2 c1 (p3.trans c4.symm)).symm
  rw [hpe] at c1 c2 c3
  have hw : ∀ i, InInterval ⟨0, 8⟩ i → IsFloat (weight float32 linearFloat rate p i) ∧
      0 ≤ (weight float32 linearFloat rate p i).getD 0 := by
    intro i hi
    unfold InInterval at hi
    simp only at hi
    have hb : |(i : ℚ)| ≤ 2 ^ 63 := by
      have h1 : (0 : ℚ) ≤ i := by exact_mod_cast hi.1
      have h2 : (i : ℚ) < 8 := by exact_mod_cast (by omega : i < 8)
      rw [abs_of_nonneg h1]
      linarith
    obtain ⟨w1, w2, -⟩ := C84_linear_weight rate p hr hr0 c1 i hb
    exact ⟨w1, w2⟩
  refine ⟨p, hp, ?_, fun i hi => (hw i hi).2⟩
  have hspan : ∀ i, InInterval ⟨0, 8⟩ i → i ∈ Finset.Ico (0 : Int) 8 := by
    intro i hi
    unfold InInterval at hi
    simp only at hi
    exact Finset.mem_Ico.2 (by omega)
  have hsum : weightSum (fun x : Option ℚ => x.getD 0) ⟨0, 8⟩ (weight float32 linearFloat rate p) =
      ∑ i ∈ Finset.Ico (0 : Int) 8, (weight float32 linearFloat rate p i).getD 0 := rfl
  have hL : (8 : ℚ) ≤ largestFloat := by unfold largestFloat; norm_num
  refine C84_nonneg (by positivity) (by norm_num) (by linarith) (fun i hi => (hw i hi).1) (fun i hi => (hw i hi).2)
    (fun i j hi hj h1 h2 => ?_) (by rw [hsum]; have := c3.1; intro h0; rw [h0] at this; norm_num at this)
    (by rw [hsum]; have := c3.2; linarith)
  have a1 := abs_le.1 (c2 i (hspan i hi) h1)
  have a2 := abs_le.1 (c2 j (hspan j hj) h2)
  have : (j : ℚ) - i < 4 := by linarith
  exact_mod_cast this

/- Resizing an image of 8 x 8 x 1 to 4 x 64 x 1 with the linear kernel in binary32: all hypotheses hold, and each pixel
is within 0.00031 of the weighted mean. -/
example (m : Mem (Option ℚ)) (hm : ∀ p : Int, 0 ≤ p → p < 64 → IsFloat (m p) ∧ |(m p).getD 0| ≤ 255) :
    ∃ (in_ out : Image3) (ax ay : Int → Int) (buf : Interval → Nat → Int) (m' : Mem (Option ℚ)),
    out.dims.map SDim.val = [⟨0, 4, 1⟩, ⟨0, 64, 4⟩, ⟨0, 1, 256⟩] ∧
    resample float32 true in_ out ⟨1#64, 2#64⟩ ⟨8#64, 1#64⟩ linearFloat ax ay buf m = some m' ∧
    ∀ x y px py, 0 ≤ x ∧ x < 4 → 0 ≤ y ∧ y < 64 →
      kernelPosition x ⟨1#64, 2#64⟩ = some px → kernelPosition y ⟨8#64, 1#64⟩ = some py →
      |(m' (100 + (x + 4 * y))).getD 0 - idealPixel (fun x => x.getD 0) in_ 0 m
          (weight float32 linearFloat ⟨1#64, 2#64⟩ px) (weight float32 linearFloat ⟨8#64, 1#64⟩ py) 0| ≤ 31 / 100000 := by
  have hx := linearFloat_example 4 ⟨1#64, 2#64⟩ ⟨by decide, by decide⟩ (by decide +kernel) (by decide) (by decide)
    (by decide) (fun x => ⟨BitVec.ofInt 64 (4 * x + 1), 2#64⟩) (by decide +kernel)
  have hy := linearFloat_example 64 ⟨8#64, 1#64⟩ ⟨by decide, by decide⟩ (by decide +kernel) (by decide) (by decide)
    (by decide) (fun x => ⟨BitVec.ofInt 64 (2 * x - 7), 16#64⟩) (by decide +kernel)
  have hd : ∀ (n : Int) (rate : Rational), 0 ≤ n → (∀ x, InInterval ⟨0, n⟩ x → ∃ p, kernelPosition x rate = some p ∧
      GoodWeights IsFloat (fun x => x.getD 0) ((2 : ℚ)⁻¹ ^ 24) largestFloat 4 ⟨0, 8⟩ (weight float32 linearFloat rate p) ∧
      ∀ i, InInterval ⟨0, 8⟩ i → 0 ≤ (weight float32 linearFloat rate p i).getD 0) →
      ∀ ks, buildKernels float32 ⟨0, 8⟩ ⟨0, n⟩ rate linearFloat = some ks →
      ∀ x r, KernelIndex ks x r → 0 ≤ x ∧ x < n ∧ 0 ≤ r - (ks.data x).dom.min ∧ r - (ks.data x).dom.min < 8 := by
    intro n rate hn0 hp ks hks x r h
    obtain ⟨ks', h1, h2, h3⟩ := C46_kernels float32 ⟨0, 8⟩ ⟨0, n⟩ rate linearFloat hn0 (by
        intro x hx
        obtain ⟨p, hp1, G, -⟩ := hp x hx
        obtain ⟨i, hi, hw⟩ := Finset.exists_ne_zero_of_sum_ne_zero G.sum
        have hi' : InInterval ⟨0, 8⟩ i := Finset.mem_Ico.1 hi
        exact ⟨p, hp1, i, hi', (C84_float.nonZero _ (G.finite i hi')).2 hw⟩)
    obtain rfl : ks = ks' := Option.some.inj (hks.symm.trans h1)
    obtain ⟨hx, hr⟩ := h
    rw [h2] at hx
    obtain ⟨p, hp1, _⟩ := hp x hx
    obtain ⟨g1, g2, _⟩ := h3 x p hx hp1
    have g1' := g1 r hr
    have g2' := g1 _ g2
    unfold InInterval at *
    simp only at *
    omega
  let in_ : Image3 := ⟨some 0, ⟨⟨-9, -9, 1⟩, ⟨0, 8, 1⟩⟩, ⟨⟨-9, -9, -9⟩, ⟨0, 8, 8⟩⟩, ⟨⟨-9, -9, -9⟩, ⟨0, 1, 64⟩⟩⟩
  let out : Image3 := ⟨some 100, ⟨⟨-9, -9, 1⟩, ⟨0, 4, 1⟩⟩, ⟨⟨-9, -9, -9⟩, ⟨0, 64, 4⟩⟩, ⟨⟨-9, -9, -9⟩, ⟨0, 1, 256⟩⟩⟩
  have hf : ∀ v : Int, Describes (-9) v := fun v h => absurd rfl h
  obtain ⟨m', e, h⟩ := C84_example in_ out 0 100 ⟨1#64, 2#64⟩ ⟨8#64, 1#64⟩ linearFloat
    (fun x => 10000 + 1000 * x) (fun y => 50000 + 1000 * y) (fun _ n => 1000000 + 1000000 * n) m rfl rfl
    ⟨⟨⟨hf _, hf _, fun _ => rfl⟩, by decide⟩, ⟨⟨hf _, hf _, hf _⟩, by decide⟩, ⟨hf _, hf _, hf _⟩, by decide⟩
    ⟨⟨⟨hf _, hf _, fun _ => rfl⟩, by decide⟩, ⟨⟨hf _, hf _, hf _⟩, by decide⟩, ⟨hf _, hf _, hf _⟩, by decide⟩
    (by decide) (fun c h => h) (by decide) (by decide) hx hy
    (by
      intro kx ky hkx hky
      have dx := hd 4 _ (by omega) hx kx hkx
      have dy := hd 64 _ (by omega) hy ky hky
      constructor
      all_goals simp only [PixelOf, KernelCell, TempCell, tempSize, kernelAddress, pixelAddress, inRangeOf, in_, out]
      · intro x y c x' y' c'; omega
      · intro x r x' r' h h'
        have := dx x r h
        have := dx x' r' h'
        intro e
        have : x = x' := by omega
        subst this
        omega
      · intro x r x' r' h h'
        have := dy x r h
        have := dy x' r' h'
        intro e
        have : x = x' := by omega
        subst this
        omega
      · rintro p ⟨x, r, h, e⟩ ⟨x', r', h', e'⟩
        have := dx x r h
        have := dy x' r' h'
        omega
      · rintro p ⟨x, y, c, h⟩ ⟨x', y', c', h'⟩; omega
      · rintro p ⟨x, y, c, h⟩
        constructor
        · rintro ⟨x', r, h', e⟩; have := dx x' r h'; omega
        · rintro ⟨x', r, h', e⟩; have := dy x' r h'; omega
      · rintro p ⟨x, y, c, h⟩
        constructor
        · rintro ⟨x', r, h', e⟩; have := dx x' r h'; omega
        · rintro ⟨x', r, h', e⟩; have := dy x' r h'; omega
      · rintro yo n p hn ht
        have ht : 1000000 ≤ p := by have := ht.1; omega
        refine ⟨?_, ?_, ?_, ?_⟩
        · rintro ⟨x, y, c, h⟩; omega
        · rintro ⟨x, y, c, h⟩; omega
        · rintro ⟨x', r, h', e⟩; have := dx x' r h'; omega
        · rintro ⟨x', r, h', e⟩; have := dy x' r h'; omega
      · intro yo n k p hn hk hnk ht ht'
        split at ht <;> split at ht' <;> omega)
    (by
      rintro p ⟨x, y, c, hx, hy, hc, rfl⟩
      simp only [pixelAddress, inRangeOf, in_] at *
      exact hm _ (by omega) (by omega))
    true
  refine ⟨in_, out, _, _, _, m', rfl, e, fun x y px py hx hy hpx hpy => ?_⟩
  have key := (h x y 0 px py (by simp only [inRangeOf, out]; omega) (by simp only [inRangeOf, out]; omega)
    (by constructor <;> decide) hpx hpy).2
  have ea : pixelAddress out 100 x y 0 = 100 + (x + 4 * y) := by
    simp only [pixelAddress, out]
    omega
  rwa [ea] at key

end Nda
