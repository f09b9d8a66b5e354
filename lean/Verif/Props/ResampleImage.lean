import Verif.Lemmas.ResampleStrip
import Mathlib.Algebra.Order.BigOperators.Group.Finset
/-
C51: `resample`.
-/
namespace Nda
open Spec
variable {F : Type}

/-- C51: `resample` to an output of at least 64 rows writes to every output pixel the weighted sum of
weighted sums of input pixels given by the kernels for its column and row; apart from the kernels and
temporaries it changes nothing else.  No assertion fails and no index is out of bounds. -/
theorem C51_resample (o : FloatOps F) (in_ out : Image3) (bi bo : Int) (rateX rateY : Rational)
    (kernel : F → F) (ax ay : Int → Int) (buf : Interval → Nat → Int) (m : Mem F)
    (hbi : in_.base = some bi) (hbo : out.base = some bo)
    (hin : ProperDim in_.x ∧ ProperDim in_.y ∧ ProperDim in_.c)
    (hout : ProperDim out.x ∧ ProperDim out.y ∧ ProperDim out.c)
    (h64 : 64 ≤ out.y.val.extent)
    (hcs : ∀ c, inRangeOf out.c c → inRangeOf in_.c c)
    (hfit1 : 64 * in_.x.val.extent * out.c.val.extent ≤ 9223372036854775807)
    (hfit2 : 64 * out.x.val.extent * out.c.val.extent ≤ 9223372036854775807)
    (hkx : KernelsCover o in_.x out.x rateX kernel) (hky : KernelsCover o in_.y out.y rateY kernel)
    (hsep : ∀ kx ky, buildKernels o in_.x.val.toInterval out.x.val.toInterval rateX kernel = some kx →
      buildKernels o in_.y.val.toInterval out.y.val.toInterval rateY kernel = some ky →
      SeparateObjects in_ out bi bo kx ky ax ay buf) :
    ∃ kx ky,
      (∀ x p, inRangeOf out.x x → kernelPosition x rateX = some p →
        GoodKernel o ⟨in_.x.val.min, in_.x.val.extent⟩ (weight o kernel rateX p) (kx.data x)) ∧
      (∀ y p, inRangeOf out.y y → kernelPosition y rateY = some p →
        GoodKernel o ⟨in_.y.val.min, in_.y.val.extent⟩ (weight o kernel rateY p) (ky.data y)) ∧
      SeparateObjects in_ out bi bo kx ky ax ay buf ∧
      ∀ debug, ∃ m', resample o debug in_ out rateX rateY kernel ax ay buf m = some m' ∧
        (∀ x y c, inRangeOf out.x x → inRangeOf out.y y → inRangeOf out.c c →
          m' (pixelAddress out bo x y c) = kernelSum o (kx.data x) fun rx =>
            kernelSum o (ky.data y) fun ry => m (pixelAddress in_ bi rx ry c)) ∧
        ∀ p, ¬ PixelOf out bo p → ¬ KernelCell kx ax p → ¬ KernelCell ky ay p →
          (∀ yo, ∀ n < 3, ¬ TempCell in_ out buf yo n p) → m' p = m p := by
  obtain ⟨kx, bx, dx, gx⟩ := C46_kernels o in_.x.val.toInterval out.x.val.toInterval rateX kernel
    hout.1.2.le hkx
  obtain ⟨ky, by_, dy, gy⟩ := C46_kernels o in_.y.val.toInterval out.y.val.toInterval rateY kernel
    hout.2.1.2.le hky
  have sep := hsep kx ky bx by_
  refine ⟨kx, ky, gx, gy, sep, fun debug => ?_⟩
  have kx' : ∀ x, inRangeOf out.x x → InInterval kx.dom x ∧ 0 ≤ (kx.data x).dom.extent ∧
      ∀ r, InInterval (kx.data x).dom r → inRangeOf in_.x r := by
    intro x hx
    obtain ⟨p, hp, _⟩ := hkx x hx
    have g := gx x p hx hp
    refine ⟨by rw [dx]; exact hx, ?_, g.1⟩
    have := g.2.1
    unfold InInterval at this
    omega
  have ky' : ∀ x, inRangeOf out.y x → InInterval ky.dom x ∧ 0 ≤ (ky.data x).dom.extent ∧
      ∀ r, InInterval (ky.data x).dom r → inRangeOf in_.y r := by
    intro x hx
    obtain ⟨p, hp, _⟩ := hky x hx
    have g := gy x p hx hp
    refine ⟨by rw [dy]; exact hx, ?_, g.1⟩
    have := g.2.1
    unfold InInterval at this
    omega
  obtain ⟨px, fx⟩ := placeKernels_spec sep.kx_injective m
  obtain ⟨py, fy⟩ := placeKernels_spec sep.ky_injective (placeKernels kx ax m)
  obtain ⟨l, hl, -, -, hl3⟩ := C25_intervals out.y.val.toInterval 64 (by omega) h64
  obtain ⟨l', hl', hcov, -⟩ := C25_cover out.y.val.toInterval 64 (by omega) h64
  obtain rfl : l = l' := Option.some.inj (hl.symm.trans hl')
  have hstrips : ∀ yo ∈ l, yo.extent = 64 ∧ out.y.val.min ≤ yo.min ∧
      yo.min + 64 ≤ out.y.val.min + out.y.val.extent := by
    intro yo hyo
    obtain ⟨k, hk⟩ := List.getElem?_of_mem hyo
    have he := (hl3 k yo hk).1
    have h1 := (hcov yo.min).2 ⟨yo, hyo, by unfold InIvl; omega⟩
    have h2 := (hcov (yo.min + 63)).2 ⟨yo, hyo, by unfold InIvl; omega⟩
    unfold InIvl at h1 h2
    simp only [Dim.toInterval] at h1 h2
    omega
  obtain ⟨m', e, v, f⟩ := resampleStrips_spec o debug hbi hbo hin hout hcs hfit1 hfit2 kx' ky' sep l
    (placeKernels ky ay (placeKernels kx ax m)) hstrips
    (by
      intro x r h
      rw [fy _ (sep.kx_ky _ ⟨x, r, h, rfl⟩)]
      exact px x r h)
    py
  refine ⟨m', ?_, ?_, ?_⟩
  · unfold resample
    have ha : splitStaticAssert 64 out.y.val.toInterval = true := decide_eq_true h64
    rw [bx, by_]
    simp only [Option.bind_eq_bind, Option.bind_some]
    rw [ha, requireAssert_true, hl]
    exact e
  · intro x y c hx hy hc
    rw [v x y c hx ((hcov y).1 hy) hc]
    unfold kernelSum
    refine List.foldl_ext _ _ _ fun s rx hrx => ?_
    have hrx : InInterval (kx.data x).dom rx := mem_ints.1 hrx
    congr 2
    refine List.foldl_ext _ _ _ fun s ry hry => ?_
    have hry : InInterval (ky.data y).dom ry := mem_ints.1 hry
    congr 2
    have hP : PixelOf in_ bi (pixelAddress in_ bi rx ry c) :=
      ⟨rx, ry, c, (kx' x hx).2.2 rx hrx, (ky' y hy).2.2 ry hry, hcs c hc, rfl⟩
    show placeKernels ky ay (placeKernels kx ax m) _ = _
    rw [fy _ (sep.in_k _ hP).2, fx _ (sep.in_k _ hP).1]
  · intro p h1 h2 h3 h4
    rw [f p (fun x y c hx hy hc e => h1 ⟨x, y, c, hx, (hcov y).2 hy, hc, e⟩) (fun yo _ => h4 yo),
      fy p h3, fx p h2]

/-- C51: with exact arithmetic (and kernel values that do not sum to zero) resampling an image whose
values all are `v` gives an image whose values all are `v`. -/
theorem C51_constant {K : Type} [Field K] [LinearOrder K] (in_ out : Image3) (bi bo : Int)
    (rateX rateY : Rational)
    (kernel : K → K) (ax ay : Int → Int) (buf : Interval → Nat → Int) (m : Mem K) (v : K)
    (hbi : in_.base = some bi) (hbo : out.base = some bo)
    (hin : ProperDim in_.x ∧ ProperDim in_.y ∧ ProperDim in_.c)
    (hout : ProperDim out.x ∧ ProperDim out.y ∧ ProperDim out.c)
    (h64 : 64 ≤ out.y.val.extent)
    (hcs : ∀ c, inRangeOf out.c c → inRangeOf in_.c c)
    (hfit1 : 64 * in_.x.val.extent * out.c.val.extent ≤ 9223372036854775807)
    (hfit2 : 64 * out.x.val.extent * out.c.val.extent ≤ 9223372036854775807)
    (hkx : ∀ x, inRangeOf out.x x → ∃ p, kernelPosition x rateX = some p ∧
      ∑ i ∈ Finset.Ico in_.x.val.min (in_.x.val.min + in_.x.val.extent),
        weight (fieldOps K) kernel rateX p i ≠ 0)
    (hky : ∀ y, inRangeOf out.y y → ∃ p, kernelPosition y rateY = some p ∧
      ∑ i ∈ Finset.Ico in_.y.val.min (in_.y.val.min + in_.y.val.extent),
        weight (fieldOps K) kernel rateY p i ≠ 0)
    (hsep : ∀ kx ky, buildKernels (fieldOps K) in_.x.val.toInterval out.x.val.toInterval rateX kernel = some kx →
      buildKernels (fieldOps K) in_.y.val.toInterval out.y.val.toInterval rateY kernel = some ky →
      SeparateObjects in_ out bi bo kx ky ax ay buf)
    (hv : ∀ p, PixelOf in_ bi p → m p = v) (debug : Bool) :
    ∃ m', resample (fieldOps K) debug in_ out rateX rateY kernel ax ay buf m = some m' ∧
      ∀ p, PixelOf out bo p → m' p = v := by
  have cover : ∀ {a b : SDim} {rate : Rational}, (∀ x, inRangeOf b x → ∃ p, kernelPosition x rate = some p ∧
      ∑ i ∈ Finset.Ico a.val.min (a.val.min + a.val.extent), weight (fieldOps K) kernel rate p i ≠ 0) →
      KernelsCover (fieldOps K) a b rate kernel := by
    intro a b rate h x hx
    obtain ⟨p, hp, hs⟩ := h x hx
    obtain ⟨i, hi, hw⟩ := Finset.exists_ne_zero_of_sum_ne_zero hs
    exact ⟨p, hp, i, Finset.mem_Ico.1 hi, decide_eq_true hw⟩
  have sumConst : ∀ (k : Dense1 K) (f : Int → K) (w : K), (∀ r, InInterval k.dom r → f r = w) →
      ∑ i ∈ Finset.Ico k.dom.min (k.dom.min + k.dom.extent), k.data i = 1 →
      kernelSum (fieldOps K) k f = w := by
    intro k f w hf hs
    unfold kernelSum
    show (ints k.dom.min k.dom.extent).foldl (fun s r => s + f r * k.data r) 0 = w
    rw [foldl_sum, zero_add]
    have hnd : (ints k.dom.min k.dom.extent).Nodup := (ints_pairwise _ _).imp fun h => ne_of_lt h
    rw [← List.sum_toFinset _ hnd]
    have hset : (ints k.dom.min k.dom.extent).toFinset = Finset.Ico k.dom.min (k.dom.min + k.dom.extent) := by
      ext i
      rw [List.mem_toFinset, mem_ints, Finset.mem_Ico]
    rw [hset, Finset.sum_congr rfl fun i hi => by rw [hf i (Finset.mem_Ico.1 hi)], ← Finset.mul_sum, hs, mul_one]
  obtain ⟨kx, ky, gx, gy, sep, h⟩ := C51_resample (fieldOps K) in_ out bi bo rateX rateY kernel ax ay buf m
    hbi hbo hin hout h64 hcs hfit1 hfit2 (cover hkx) (cover hky) hsep
  obtain ⟨m', e, val, -⟩ := h debug
  refine ⟨m', e, ?_⟩
  rintro p ⟨x, y, c, hx, hy, hc, rfl⟩
  rw [val x y c hx hy hc]
  obtain ⟨px, hpx, hsx⟩ := hkx x hx
  obtain ⟨py, hpy, hsy⟩ := hky y hy
  have g1 := gx x px hx hpx
  have g2 := gy y py hy hpy
  apply sumConst
  · intro rx hrx
    apply sumConst
    · intro ry hry
      exact hv _ ⟨rx, ry, c, g1.1 rx hrx, g2.1 ry hry, hcs c hc, rfl⟩
    · exact C46_sum_one _ _ _ g2 hsy
  · exact C46_sum_one _ _ _ g1 hsx

/-- C51, negative part: with fewer than 64 output rows, the assertion in `split<64>` fails, and without
assertions the loop does not end. -/
theorem C51_small_counterexample (o : FloatOps F) (debug : Bool) (in_ out : Image3) (rateX rateY : Rational)
    (kernel : F → F) (ax ay : Int → Int) (buf : Interval → Nat → Int) (m : Mem F)
    (h0 : 0 < out.y.val.extent) (h64 : out.y.val.extent < 64) :
    resample o debug in_ out rateX rateY kernel ax ay buf m = none := by
  have hd := C25_small_diverges out.y.val.toInterval 64 h0 h64
  have ha : splitStaticAssert 64 out.y.val.toInterval = false := decide_eq_false (by
    show ¬ (64 ≤ out.y.val.extent)
    omega)
  unfold resample
  cases buildKernels o in_.x.val.toInterval out.x.val.toInterval rateX kernel with
  | none => rfl
  | some kx =>
    cases buildKernels o in_.y.val.toInterval out.y.val.toInterval rateY kernel with
    | none => rfl
    | some ky =>
      simp only [Option.bind_eq_bind, Option.bind_some, ha, hd]
      cases debug <;> rfl

/- Halving an image of 8 x 140 x 1 fives with the linear kernel (three strips, the last two of which
overlap): all hypotheses hold. -/
example : ∃ (in_ out : Image3) (ax ay : Int → Int) (buf : Interval → Nat → Int) (m m' : Mem ℚ),
    out.dims.map SDim.val = [⟨0, 4, 1⟩, ⟨0, 70, 4⟩, ⟨0, 1, 280⟩] ∧
    resample (fieldOps ℚ) true in_ out ⟨1#64, 2#64⟩ ⟨1#64, 2#64⟩ (fun s => max 0 (1 - |s|)) ax ay buf m =
      some m' ∧ m' 2279 = 5 ∧ m 2279 = 0 := by
  have hr : Canonical ⟨1#64, 2#64⟩ := ⟨by decide, by decide⟩
  have hv : value ⟨1#64, 2#64⟩ = 1 / 2 := by
    unfold value; rw [one64, two64]; norm_num
  have hw : ∀ p i, weight (fieldOps ℚ) (fun s => max 0 (1 - |s|)) ⟨1#64, 2#64⟩ p i =
      max 0 (1 - |((i : ℚ) - value p) * (1 / 2)|) := by
    intro p i
    unfold weight
    show max 0 (1 - |((i : ℚ) - value p) * (if 1 < value ⟨1#64, 2#64⟩ then 1 else value ⟨1#64, 2#64⟩)|) = _
    rw [hv, if_neg (by norm_num)]
  have hp : ∀ n : Int, n ≤ 100 → ∀ x, InInterval ⟨0, n⟩ x → ∃ p, kernelPosition x ⟨1#64, 2#64⟩ = some p ∧
      ∑ i ∈ Finset.Ico (0 : Int) (0 + 2 * n), weight (fieldOps ℚ) (fun s => max 0 (1 - |s|)) ⟨1#64, 2#64⟩ p i ≠ 0 := by
    intro n hn x hx
    unfold InInterval at hx
    simp only at hx
    obtain ⟨p, h1, _, h2⟩ := C46_position x ⟨1#64, 2#64⟩ hr (by rw [hv]; norm_num)
      (by rw [abs_lt]; norm_num; omega) (by decide) (by decide)
    rw [hv] at h2
    refine ⟨p, h1, ne_of_gt (Finset.sum_pos' (fun i _ => ?_) ⟨2 * x, Finset.mem_Ico.2 (by omega), ?_⟩)⟩
    · rw [hw]; exact le_max_left ..
    · rw [hw, h2]
      have : (((2 * x : Int) : ℚ) - (((x : ℚ) + 1 / 2) / (1 / 2) - 1 / 2)) * (1 / 2) = -(1 / 4) := by
        push_cast; ring
      rw [this, abs_neg, abs_of_pos (by norm_num)]
      norm_num
  have hd : ∀ n : Int, 0 ≤ n → n ≤ 100 → ∀ ks,
      buildKernels (fieldOps ℚ) ⟨0, 2 * n⟩ ⟨0, n⟩ ⟨1#64, 2#64⟩ (fun s => max 0 (1 - |s|)) = some ks →
      ∀ x r, KernelIndex ks x r → 0 ≤ x ∧ x < n ∧ 0 ≤ r - (ks.data x).dom.min ∧ r - (ks.data x).dom.min < 2 * n := by
    intro n hn0 hn ks hks x r h
    obtain ⟨ks', h1, h2, h3⟩ := C46_kernels (fieldOps ℚ) ⟨0, 2 * n⟩ ⟨0, n⟩ ⟨1#64, 2#64⟩
      (fun s => max 0 (1 - |s|)) hn0 (by
        intro x hx
        obtain ⟨p, hp1, hp2⟩ := hp n hn x hx
        obtain ⟨i, hi, hw⟩ := Finset.exists_ne_zero_of_sum_ne_zero hp2
        exact ⟨p, hp1, i, Finset.mem_Ico.1 hi, decide_eq_true hw⟩)
    obtain rfl : ks = ks' := Option.some.inj (hks.symm.trans h1)
    obtain ⟨hx, hr⟩ := h
    rw [h2] at hx
    obtain ⟨p, hp1, _⟩ := hp n hn x hx
    obtain ⟨g1, g2, _⟩ := h3 x p hx hp1
    have g1' := g1 r hr
    have g2' := g1 _ g2
    unfold InInterval at *
    simp only at *
    omega
  let in_ : Image3 := ⟨some 0, ⟨⟨-9, -9, 1⟩, ⟨0, 8, 1⟩⟩, ⟨⟨-9, -9, -9⟩, ⟨0, 140, 8⟩⟩, ⟨⟨-9, -9, -9⟩, ⟨0, 1, 1120⟩⟩⟩
  let out : Image3 := ⟨some 2000, ⟨⟨-9, -9, 1⟩, ⟨0, 4, 1⟩⟩, ⟨⟨-9, -9, -9⟩, ⟨0, 70, 4⟩⟩, ⟨⟨-9, -9, -9⟩, ⟨0, 1, 280⟩⟩⟩
  let m : Mem ℚ := fun p => if p < 1120 then 5 else 0
  have hf : ∀ v : Int, Describes (-9) v := fun v h => absurd rfl h
  obtain ⟨m', e, h⟩ := C51_constant in_ out 0 2000 ⟨1#64, 2#64⟩ ⟨1#64, 2#64⟩ (fun s : ℚ => max 0 (1 - |s|))
    (fun x => 10000 + 1000 * x) (fun y => 50000 + 1000 * y) (fun _ n => 1000000 + 1000000 * n) m 5 rfl rfl
    ⟨⟨⟨hf _, hf _, fun _ => rfl⟩, by decide⟩, ⟨⟨hf _, hf _, hf _⟩, by decide⟩, ⟨hf _, hf _, hf _⟩, by decide⟩
    ⟨⟨⟨hf _, hf _, fun _ => rfl⟩, by decide⟩, ⟨⟨hf _, hf _, hf _⟩, by decide⟩, ⟨hf _, hf _, hf _⟩, by decide⟩
    (by decide) (fun c h => h) (by decide) (by decide)
    (hp 4 (by omega)) (hp 70 (by omega))
    (by
      intro kx ky hkx hky
      have dx := hd 4 (by omega) (by omega) kx hkx
      have dy := hd 70 (by omega) (by omega) ky hky
      constructor
      all_goals simp only [PixelOf, KernelCell, TempCell, tempSize, kernelAddress, pixelAddress, inRangeOf, in_, out]
      · intro x y c x' y' c'; omega
      · intro x r x' r' h h'
        have := dx x r h
        have := dx x' r' h'
        intro e
        have : x = x' := by omega
        subst this
        omega
      · intro x r x' r' h h'
        have := dy x r h
        have := dy x' r' h'
        intro e
        have : x = x' := by omega
        subst this
        omega
      · rintro p ⟨x, r, h, e⟩ ⟨x', r', h', e'⟩
        have := dx x r h
        have := dy x' r' h'
        omega
      · rintro p ⟨x, y, c, h⟩ ⟨x', y', c', h'⟩; omega
      · rintro p ⟨x, y, c, h⟩
        constructor
        · rintro ⟨x', r, h', e⟩; have := dx x' r h'; omega
        · rintro ⟨x', r, h', e⟩; have := dy x' r h'; omega
      · rintro p ⟨x, y, c, h⟩
        constructor
        · rintro ⟨x', r, h', e⟩; have := dx x' r h'; omega
        · rintro ⟨x', r, h', e⟩; have := dy x' r h'; omega
      · rintro yo n p hn ht
        have ht : 1000000 ≤ p := by have := ht.1; omega
        refine ⟨?_, ?_, ?_, ?_⟩
        · rintro ⟨x, y, c, h⟩; omega
        · rintro ⟨x, y, c, h⟩; omega
        · rintro ⟨x', r, h', e⟩; have := dx x' r h'; omega
        · rintro ⟨x', r, h', e⟩; have := dy x' r h'; omega
      · intro yo n k p hn hk hnk ht ht'
        split at ht <;> split at ht' <;> omega)
    (by
      rintro p ⟨x, y, c, hx, hy, hc, rfl⟩
      simp only [pixelAddress, inRangeOf, in_] at *
      show (if _ then (5:ℚ) else 0) = 5
      rw [if_pos (by omega)])
    true
  refine ⟨in_, out, _, _, _, m, m', rfl, e, h 2279 ⟨3, 69, 0, ?_, ?_, ?_, ?_⟩, ?_⟩
  · constructor <;> decide
  · constructor <;> decide
  · constructor <;> decide
  · decide
  · show (if (2279 : Int) < 1120 then (5:ℚ) else 0) = 0
    rw [if_neg (by decide)]

end Nda
