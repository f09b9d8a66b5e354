import Verif.Lemmas.BoxFloat
/-
C99: the box kernel in the arithmetic of `float`.
-/
namespace Nda
open Spec Kernel

/-- C99: the weights of `box` in binary32, for a row or column of at most 2^18 pixels that becomes one of at most 2^21: each
is 0 or 1, and those that are 1 are the ones of the pixels within half a pixel of the position, up to the tolerance of the
positions; there is at least one. So the assertion of `build_kernels` does not fail. -/
theorem C99_weights {n newN : Int} (hn : 1 ≤ n ∧ n ≤ 2 ^ 18) (hN : 1 ≤ newN ∧ newN ≤ 2 ^ 21) :
    ∃ rate, Rational.mk2 (BitVec.ofInt 64 newN) (BitVec.ofInt 64 n) = some rate ∧
      ∀ x, InInterval ⟨0, newN⟩ x → ∃ p S, kernelPosition x rate = some p ∧ BoxSamples n newN x ((20 * n + 11) / 2 ^ 24) S ∧
        ∀ i, InInterval ⟨0, n⟩ i → weight float32 (boxOp float32Kernel) rate p i = some (if i ∈ S then 1 else 0) := by
  obtain ⟨rate, e, h⟩ := box_direction_any hn hN
  refine ⟨rate, e, fun x hx => ?_⟩
  obtain ⟨p, S, a, b, -, c⟩ := h x hx
  exact ⟨p, S, a, b, c⟩

/-- The average is between the least and the greatest value. -/
theorem limited_average {w h : Int} {SX SY : Finset Int} (hx : SX ⊆ spanOf ⟨0, w⟩) (hy : SY ⊆ spanOf ⟨0, h⟩) (nx : SX.Nonempty)
    (ny : SY.Nonempty) (top : Int) (img : Int → Int → ℚ)
    (him : ∀ i j, InInterval ⟨0, w⟩ i → InInterval ⟨0, h⟩ j → 0 ≤ img i j ∧ img i j ≤ top) :
    limited top (average SX SY img) = average SX SY img := by
  have cx : (0 : ℚ) < SX.card := by exact_mod_cast nx.card_pos
  have cy : (0 : ℚ) < SY.card := by exact_mod_cast ny.card_pos
  have him' : ∀ i ∈ SX, ∀ j ∈ SY, 0 ≤ img i j ∧ img i j ≤ top := fun i hi j hj =>
    him i j (Finset.mem_Ico.1 (hx hi)) (Finset.mem_Ico.1 (hy hj))
  have a : 0 ≤ average SX SY img := div_nonneg (Finset.sum_nonneg fun i hi => Finset.sum_nonneg fun j hj => (him' i hi j hj).1)
    (by positivity)
  have b : average SX SY img ≤ top := by
    unfold average
    rw [div_le_iff₀ (by positivity)]
    refine (Finset.sum_le_card_nsmul SX _ ((SY.card : ℚ) * top) fun i hi => ?_).trans_eq (by rw [nsmul_eq_mul]; ring)
    exact (Finset.sum_le_card_nsmul SY _ (top : ℚ) fun j hj => (him' i hi j hj).2).trans_eq (by rw [nsmul_eq_mul])
  unfold limited
  rw [min_eq_left b, max_eq_right a]

/-- The kernel `box` gives the pixels of `S` the weight 1 and the others 0, in binary32. -/
def BoxWeights (n newN x : Int) (S : Finset Int) : Prop :=
  ∃ rate p, Rational.mk2 (BitVec.ofInt 64 newN) (BitVec.ofInt 64 n) = some rate ∧ kernelPosition x rate = some p ∧
    ∀ i, InInterval ⟨0, n⟩ i → weight float32 (boxOp float32Kernel) rate p i = some (if i ∈ S then 1 else 0)

/-- The program in binary32, with the weights. -/
theorem box_program (top : Int) (h0 : 0 ≤ top) (h24 : top < 2 ^ 24)
    (w h newW newH : Int) (hw : 1 ≤ w ∧ w ≤ 2 ^ 18) (hh : 1 ≤ h ∧ h ≤ 2 ^ 18) (hW : 1 ≤ newW ∧ newW ≤ 2 ^ 21)
    (hH : 64 ≤ newH ∧ newH ≤ 2 ^ 21) (NX NY : Nat)
    (x1 : 2 ≤ NX * min ((newW : ℚ) / w) 1) (x2 : NX ≤ 2 ^ 18) (y1 : 2 ≤ NY * min ((newH : ℚ) / h) 1) (y2 : NY ≤ 2 ^ 18)
    (cacheIn cacheOut : Int) (pixels : Mem Int) (m : Mem (Option ℚ))
    (hpix : ∀ x y c, IsComponent w h x y c → 0 ≤ pixels (componentAddress cacheIn w x y c) ∧
      pixels (componentAddress cacheIn w x y c) ≤ top) (debug : Bool) :
    ∃ (ax ay : Int → Int) (buf : Interval → Nat → Int) (pixels' : Mem Int),
      resizeImage float32 (floatQuantum top) debug w h newW newH (boxOp float32Kernel) cacheIn cacheOut 0 (4 * (w * h)) ax ay buf
        pixels m = some pixels' ∧
      (∀ x y c, IsComponent newW newH x y c → ∃ (v : ℚ) (SX SY : Finset Int),
        BoxSamples w newW x ((20 * w + 11) / 2 ^ 24) SX ∧ BoxSamples h newH y ((20 * h + 11) / 2 ^ 24) SY ∧
        BoxWeights w newW x SX ∧ BoxWeights h newH y SY ∧ pixels' (componentAddress cacheOut newW x y c) = ⌊v⌋ ∧
        |v - average SX SY fun i j => pixels (componentAddress cacheIn w i j c)| ≤ 3 * (NX + NY + 4) / 2 ^ 24 * (top + 1)) ∧
      ∀ p, p < cacheOut ∨ cacheOut + 4 * (newW * newH) ≤ p → pixels' p = pixels p := by
  have big : ∀ n : Int, n ≤ 2 ^ 21 → n < 2 ^ 29 := fun n hn => lt_of_le_of_lt hn (by norm_num)
  have hw' : 1 ≤ w ∧ w < 2 ^ 29 := ⟨hw.1, big _ (hw.2.trans (by norm_num))⟩
  have hh' : 1 ≤ h ∧ h < 2 ^ 29 := ⟨hh.1, big _ (hh.2.trans (by norm_num))⟩
  have hW' : 1 ≤ newW ∧ newW < 2 ^ 29 := ⟨hW.1, big _ hW.2⟩
  have hH' : 1 ≤ newH ∧ newH < 2 ^ 29 := ⟨by omega, big _ hH.2⟩
  set k := boxOp float32Kernel with hk
  obtain ⟨rateX, ex, hkx⟩ := box_direction hw hW x1 x2
  obtain ⟨rateY, ey, hky⟩ := box_direction hh ⟨by omega, hH.2⟩ y1 y2
  have bound : ∀ n : Int, n < 2 ^ 29 → 64 * n * 4 ≤ 9223372036854775807 := by
    intro n hn
    norm_num at hn
    omega
  have cover : ∀ {a b : SDim} {rate : Rational} {n : Nat}, (∀ x, inRangeOf b x → ∃ p, kernelPosition x rate = some p ∧
      GoodWeights IsFloat (fun x => x.getD 0) ((2 : ℚ)⁻¹ ^ 24) largestFloat n a.val.toInterval (weight float32 k rate p)) →
      KernelsCover float32 a b rate k := by
    intro a b rate n h x hx
    obtain ⟨p, hp, G⟩ := h x hx
    obtain ⟨i, hi, hw⟩ := Finset.exists_ne_zero_of_sum_ne_zero G.sum
    have hi' : InInterval a.val.toInterval i := Finset.mem_Ico.1 hi
    exact ⟨p, hp, i, hi', (C84_float.nonZero _ (G.finite i hi')).2 hw⟩
  have gx : ∀ x, InInterval ⟨0, newW⟩ x → ∃ p, kernelPosition x rateX = some p ∧
      GoodWeights IsFloat (fun x => x.getD 0) ((2 : ℚ)⁻¹ ^ 24) largestFloat NX ⟨0, w⟩ (weight float32 k rateX p) :=
    fun x hx => by obtain ⟨p, S, a, b, -⟩ := hkx x hx; exact ⟨p, a, b⟩
  have gy : ∀ y, InInterval ⟨0, newH⟩ y → ∃ p, kernelPosition y rateY = some p ∧
      GoodWeights IsFloat (fun x => x.getD 0) ((2 : ℚ)⁻¹ ^ 24) largestFloat NY ⟨0, h⟩ (weight float32 k rateY p) :=
    fun y hy => by obtain ⟨p, S, a, b, -⟩ := hky y hy; exact ⟨p, a, b⟩
  have t0 : (0 : ℚ) ≤ top := by exact_mod_cast h0
  have t1 : (top : ℚ) ≤ 16777216 := by exact_mod_cast h24.le
  have stages := box_stages x2 y2 t0
  obtain ⟨pixels', e, hval, hrest⟩ := C85_rounding C84_float (C85_float top h0 h24) w h newW newH (image_size hw' hh')
    (image_size hW' hH') hH.1 (bound w hw'.2) (bound newW hW'.2) k cacheIn cacheOut 0 (4 * (w * h))
    (fun x => 4 * (w * h) + 4 * (newW * newH) + x * w) (fun y => 4 * (w * h) + 4 * (newW * newH) + newW * w + y * h)
    (fun _ n => 4 * (w * h) + 4 * (newW * newH) + newW * w + newH * h + n * (256 * (w + newW))) pixels m rateX rateY ex ey NX NY
    gx gy (fun kx ky e1 e2 => C85_placement w h newW newH (image_size hw' hh') (image_size hW' hH') k rateX rateY _ _ _ _ rfl rfl rfl
      rfl (cover (a := (planarOf w h 4 0).x) (b := (planarOf newW newH 4 (4 * (w * h))).x) gx)
      (cover (a := (planarOf w h 4 0).y) (b := (planarOf newW newH 4 (4 * (w * h))).y) gy) kx ky e1 e2) hpix
    (fun x y px py hx hy hpx hpy => by
      obtain ⟨p, S, a1, -, a3, -⟩ := hkx x hx
      obtain rfl : px = p := Option.some.inj (hpx.symm.trans a1)
      obtain ⟨p', S', b1, -, b3, -⟩ := hky y hy
      obtain rfl : py = p' := Option.some.inj (hpy.symm.trans b1)
      rw [a3, b3]
      refine stages.trans ?_
      have hNX : (NX : ℚ) ≤ 262144 := by exact_mod_cast x2
      have hNY : (NY : ℚ) ≤ 262144 := by exact_mod_cast y2
      have : 3 * ((NX : ℚ) + NY + 4) / 2 ^ 24 ≤ 1 := by
        rw [div_le_iff₀ (by norm_num)]
        norm_num
        linarith
      have := mul_le_mul_of_nonneg_right this (by linarith : 0 ≤ (top : ℚ) + 1)
      have hL : (2 : ℚ) ^ 67 ≤ largestFloat := by unfold largestFloat; norm_num
      refine le_trans ?_ hL
      norm_num
      linarith) debug
  refine ⟨_, _, _, pixels', e, fun x y c hc => ?_, hrest⟩
  have hx : InInterval ⟨0, newW⟩ x := ⟨hc.1.1, by show x < 0 + newW; have := hc.1.2; omega⟩
  have hy : InInterval ⟨0, newH⟩ y := ⟨hc.2.1.1, by show y < 0 + newH; have := hc.2.1.2; omega⟩
  obtain ⟨px, SX, a1, -, a3, a4, a5, a6⟩ := hkx x hx
  obtain ⟨py, SY, b1, -, b3, b4, b5, b6⟩ := hky y hy
  obtain ⟨v, v1, v2⟩ := hval x y c px py hc a1 b1
  refine ⟨v, SX, SY, a4, b4, ⟨_, _, ex, a1, a6⟩, ⟨_, _, ey, b1, b6⟩, v1, ?_⟩
  rw [a3, b3, weightedMean_box a5 b5 a6 b6, limited_average a5 b5 a4.nonempty b4.nonempty] at v2
  · refine v2.trans ?_
    have : ((floatQuantum top).maxQuantum : ℚ) = top := rfl
    rw [this]
    linarith
  · intro i j hi hj
    have i1 : 0 ≤ i := hi.1
    have i2 : i < 0 + w := hi.2
    have j1 : 0 ≤ j := hj.1
    have j2 : j < 0 + h := hj.2
    have := hpix i j c ⟨⟨i1, by omega⟩, ⟨j1, by omega⟩, hc.2.2⟩
    exact ⟨by exact_mod_cast this.1, by exact_mod_cast this.2⟩

/-- C99: the program that resizes images, in binary32 and with the kernel `box`: for images of at most 262144 by 262144 pixels
that become images of at most 2097152 by 2097152 pixels (and not smaller by a factor of more than 131072) it ends without an
undefined operation or a failing assertion, and each component of the result is the plain average of the components of the
pixels near its position, with an error of at most `3 (NX + NY + 4) (top + 1) / 2^24`, without its fraction. -/
theorem C99_program (top : Int) (h0 : 0 ≤ top) (h24 : top < 2 ^ 24)
    (w h newW newH : Int) (hw : 1 ≤ w ∧ w ≤ 2 ^ 18) (hh : 1 ≤ h ∧ h ≤ 2 ^ 18) (hW : 1 ≤ newW ∧ newW ≤ 2 ^ 21)
    (hH : 64 ≤ newH ∧ newH ≤ 2 ^ 21) (NX NY : Nat)
    (x1 : 2 ≤ NX * min ((newW : ℚ) / w) 1) (x2 : NX ≤ 2 ^ 18) (y1 : 2 ≤ NY * min ((newH : ℚ) / h) 1) (y2 : NY ≤ 2 ^ 18)
    (cacheIn cacheOut : Int) (pixels : Mem Int) (m : Mem (Option ℚ))
    (hpix : ∀ x y c, IsComponent w h x y c → 0 ≤ pixels (componentAddress cacheIn w x y c) ∧
      pixels (componentAddress cacheIn w x y c) ≤ top) (debug : Bool) :
    ∃ (ax ay : Int → Int) (buf : Interval → Nat → Int) (pixels' : Mem Int),
      resizeImage float32 (floatQuantum top) debug w h newW newH (boxOp float32Kernel) cacheIn cacheOut 0 (4 * (w * h)) ax ay buf
        pixels m = some pixels' ∧
      (∀ x y c, IsComponent newW newH x y c → ∃ (v : ℚ) (SX SY : Finset Int),
        BoxSamples w newW x ((20 * w + 11) / 2 ^ 24) SX ∧ BoxSamples h newH y ((20 * h + 11) / 2 ^ 24) SY ∧
        pixels' (componentAddress cacheOut newW x y c) = ⌊v⌋ ∧
        |v - average SX SY fun i j => pixels (componentAddress cacheIn w i j c)| ≤ 3 * (NX + NY + 4) / 2 ^ 24 * (top + 1)) ∧
      ∀ p, p < cacheOut ∨ cacheOut + 4 * (newW * newH) ≤ p → pixels' p = pixels p := by
  obtain ⟨ax, ay, buf, pixels', e, hval, hrest⟩ := box_program top h0 h24 w h newW newH hw hh hW hH NX NY x1 x2 y1 y2 cacheIn cacheOut
    pixels m hpix debug
  refine ⟨ax, ay, buf, pixels', e, fun x y c hc => ?_, hrest⟩
  obtain ⟨v, SX, SY, a, b, -, -, c, d⟩ := hval x y c hc
  exact ⟨v, SX, SY, a, b, c, d⟩

/-- C99: if an image is not made smaller, one pixel is averaged, except where two are within the tolerance of half a pixel
from the position: each pixel that is averaged is the nearest one, up to the tolerance. -/
theorem C99_enlarged {n newN x : Int} (hn : 1 ≤ n ∧ n ≤ 2 ^ 18) (h : n ≤ newN) {S : Finset Int}
    (hS : BoxSamples n newN x ((20 * n + 11) / 2 ^ 24) S) : S.card ≤ 2 ∧
    ∀ i ∈ S, ∀ j : Int, |i - samplePosition n newN x| ≤ |j - samplePosition n newN x| + (40 * n + 22) / 2 ^ 24 := by
  have hnq : (1 : ℚ) ≤ n := by exact_mod_cast hn.1
  have hnq2 : (n : ℚ) ≤ 262144 := by exact_mod_cast hn.2
  have hNq : (n : ℚ) ≤ newN := by exact_mod_cast h
  have hone : min ((newN : ℚ) / n) 1 = 1 := min_eq_right ((one_le_div (by linarith)).2 hNq)
  have far : ∀ i ∈ S, |(i : ℚ) - samplePosition n newN x| ≤ 1 / 2 + (20 * n + 11) / 2 ^ 24 := by
    intro i hi
    have := hS.far i hi
    rwa [hone, mul_one] at this
  have hδ : (20 * (n : ℚ) + 11) / 2 ^ 24 < 1 / 2 := by rw [div_lt_iff₀ (by norm_num)]; norm_num; linarith
  constructor
  · refine card_close S 2 fun i hi j hj => ?_
    have a := (abs_le.1 (far i hi)).1
    have b := (abs_le.1 (far j hj)).2
    have : (j : ℚ) - i < 2 := by linarith
    exact_mod_cast this
  · intro i hi j
    have a := far i hi
    have e : (40 * (n : ℚ) + 22) / 2 ^ 24 = 2 * ((20 * n + 11) / 2 ^ 24) := by ring
    rw [e]
    set δ := (20 * (n : ℚ) + 11) / 2 ^ 24
    have hδ0 : 0 ≤ δ := by positivity
    set q := samplePosition n newN x
    rcases eq_or_ne j i with rfl | hji
    · linarith
    · have hd : (1 : ℚ) ≤ |(j : ℚ) - i| := by exact_mod_cast Int.one_le_abs (sub_ne_zero.2 hji)
      have tri := abs_add_le ((j : ℚ) - q) (q - i)
      rw [sub_add_sub_cancel, abs_sub_comm q] at tri
      linarith

/-- C99: if both sizes are the same, each pixel is averaged with no other one. -/
theorem C99_same {n x : Int} (hn : 1 ≤ n ∧ n ≤ 2 ^ 18) {S : Finset Int}
    (hS : BoxSamples n n x ((20 * n + 11) / 2 ^ 24) S) : S = {x} := by
  have hnq : (1 : ℚ) ≤ n := by exact_mod_cast hn.1
  have hnq2 : (n : ℚ) ≤ 262144 := by exact_mod_cast hn.2
  have hone : min ((n : ℚ) / n) 1 = 1 := by rw [div_self (by linarith)]; simp
  have hpos : samplePosition n n x = x := by
    unfold samplePosition
    rw [mul_div_assoc, div_self (by linarith)]
    ring
  have hδ : (20 * (n : ℚ) + 11) / 2 ^ 24 < 1 / 2 := by rw [div_lt_iff₀ (by norm_num)]; norm_num; linarith
  have key : ∀ i ∈ S, i = x := by
    intro i hi
    have := hS.far i hi
    rw [hone, mul_one, hpos] at this
    by_contra hne
    have hd : (1 : ℚ) ≤ |(i : ℚ) - x| := by exact_mod_cast Int.one_le_abs (sub_ne_zero.2 hne)
    linarith
  exact Finset.eq_singleton_iff_nonempty_unique_mem.2 ⟨hS.nonempty, key⟩

/-- Four pixels become two: the first is the average of the first two, whose distances to its position 1/2 are a quarter of a
pixel of the new image. -/
example (S : Finset Int) (hS : BoxSamples 4 2 0 ((20 * 4 + 11) / 2 ^ 24) S) : S = {0, 1} := by
  have e : samplePosition 4 2 0 = 1 / 2 := by unfold samplePosition; norm_num
  have m : min (((2 : Int) : ℚ) / (4 : Int)) 1 = 1 / 2 := by norm_num
  ext i
  constructor
  · intro hi
    have h := hS.far i hi
    rw [e, m] at h
    have h1 := (abs_le.1 h).2
    have r := hS.range i hi
    have : (i : ℚ) < 2 := by norm_num at h1; linarith
    have : i < 2 := by exact_mod_cast this
    have : i = 0 ∨ i = 1 := by omega
    simpa using this
  · intro hi
    obtain rfl | rfl : i = 0 ∨ i = 1 := by simpa using hi
    · exact hS.near 0 (by norm_num) (by norm_num) (by rw [e, m]; norm_num [abs_le])
    · exact hS.near 1 (by norm_num) (by norm_num) (by rw [e, m]; norm_num [abs_le])

/-- Such samples exist, and here they are found by the program: a row of 4 pixels becomes one of 2. -/
example : ∃ rate p, Rational.mk2 2#64 4#64 = some rate ∧ kernelPosition 1 rate = some p ∧
    (List.map (weight float32 (boxOp float32Kernel) rate p) [0, 1, 2, 3]) = [some 0, some 0, some 1, some 1] :=
  ⟨⟨1#64, 2#64⟩, ⟨5#64, 2#64⟩, mk2_eq (by decide) ⟨by decide, by decide⟩ (by decide +kernel),
    position_eq ⟨by decide, by decide⟩ (by decide +kernel) (by decide) (by decide) (by decide) ⟨by decide, by decide⟩
      (by decide +kernel), by decide +kernel⟩

/-- Where two pixels are equally near, both are averaged: a row of 2 pixels becomes one of 3. -/
example : ∃ rate p, Rational.mk2 3#64 2#64 = some rate ∧ kernelPosition 1 rate = some p ∧
    (List.map (weight float32 (boxOp float32Kernel) rate p) [0, 1]) = [some 1, some 1] :=
  ⟨⟨3#64, 2#64⟩, ⟨1#64, 2#64⟩, mk2_eq (by decide) ⟨by decide, by decide⟩ (by decide +kernel),
    position_eq ⟨by decide, by decide⟩ (by decide +kernel) (by decide) (by decide) (by decide) ⟨by decide, by decide⟩
      (by decide +kernel), by decide +kernel⟩

/-- The program doubles the size of an 8-bit image of 20000 by 10000 pixels with `box`; the error is below 0.0004. -/
example (pixels : Mem Int) (m : Mem (Option ℚ))
    (hpix : ∀ x y c, IsComponent 20000 10000 x y c → 0 ≤ pixels (componentAddress 0 20000 x y c) ∧
      pixels (componentAddress 0 20000 x y c) ≤ 255) :
    ∃ ax ay buf pixels', resizeImage float32 (floatQuantum 255) true 20000 10000 40000 20000 (boxOp float32Kernel)
      0 10000000000 0 (4 * (20000 * 10000)) ax ay buf pixels m = some pixels' ∧
      ∀ x y c, IsComponent 40000 20000 x y c → ∃ (v : ℚ) (SX SY : Finset Int),
        pixels' (componentAddress 10000000000 40000 x y c) = ⌊v⌋ ∧ SX.card ≤ 2 ∧ SY.card ≤ 2 ∧
        |v - average SX SY fun i j => pixels (componentAddress 0 20000 i j c)| ≤ 4 / 10000 := by
  obtain ⟨ax, ay, buf, pixels', h, hv, -⟩ := C99_program 255 (by norm_num) (by norm_num) 20000 10000 40000 20000 (by norm_num)
    (by norm_num) (by norm_num) (by norm_num) 2 2 (by norm_num) (by norm_num) (by norm_num) (by norm_num)
    0 10000000000 pixels m hpix true
  refine ⟨ax, ay, buf, pixels', h, fun x y c hc => ?_⟩
  obtain ⟨v, SX, SY, a, b, e, hb⟩ := hv x y c hc
  exact ⟨v, SX, SY, e, (C99_enlarged (by norm_num) (by norm_num) a).1, (C99_enlarged (by norm_num) (by norm_num) b).1,
    hb.trans (by norm_num)⟩

/-- The bound for new sizes is needed: `C91_box_counterexample` enlarges 2 pixels to 24623797, and the last new pixel has no
sample. -/
example : ¬ ∀ n newN : Int, 1 ≤ n → n ≤ 2 ^ 18 → 1 ≤ newN → newN ≤ 2 ^ 25 → ∀ rate x p,
    Rational.mk2 (BitVec.ofInt 64 newN) (BitVec.ofInt 64 n) = some rate → InInterval ⟨0, newN⟩ x → kernelPosition x rate = some p →
    ∃ i, InInterval ⟨0, n⟩ i ∧ weight float32 (boxOp float32Kernel) rate p i = some 1 := by
  intro h
  obtain ⟨hc, -, hx, p, hp, hz, -⟩ := C91_box_counterexample
  obtain ⟨i, hi, e⟩ := h 2 24623797 (by norm_num) (by norm_num) (by norm_num) (by norm_num) _ _ _
    (mk2_eq (by decide) hc (by decide +kernel)) hx hp
  rw [hz i hi] at e
  exact absurd (Option.some.inj e) (by norm_num)

end Nda
