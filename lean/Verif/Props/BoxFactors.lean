import Verif.Lemmas.BoxFactors
/-
C103: the box kernel with whole factors.
-/
namespace Nda
open Spec Kernel

/-- C103: in exact arithmetic, an image made smaller by whole factors with `box` has the averages of the blocks of the image,
and an image made larger by whole factors repeats each pixel; both without the fraction. -/
theorem C103_exact {top : Int} {w h newW newH : Int} (hs : Sizes w h newW newH) (hx : newW ∣ w ∨ w ∣ newW) (hy : newH ∣ h ∨ h ∣ newH)
    (cacheIn cacheOut : Int) (pixels : Mem Int) (m : Mem ℚ) (hpix : ComponentsIn 0 top cacheIn w h pixels) (debug : Bool) :
    ∃ pixels', resizeExact top debug w h newW newH box cacheIn cacheOut pixels m = some pixels' ∧
      ∀ x y c, IsComponent newW newH x y c → pixels' (componentAddress cacheOut newW x y c) =
        blockAverage w h newW newH (fun i j => pixels (componentAddress cacheIn w i j c)) x y := by
  have hw := hs.width.1
  have hh := hs.height.1
  have hW := hs.newWidth.1
  have hH : 1 ≤ newH := by have := hs.newHeight.1; omega
  obtain ⟨pixels', e, v⟩ := resizeExact_run (.inl rfl) hs cacheIn cacheOut pixels m hpix debug
  refine ⟨pixels', e, fun x y c hc => ?_⟩
  have rx := block_range hw hW hx hc.1.1 hc.1.2
  have ry := block_range hh hH hy hc.2.1.1 hc.2.1.2
  have hb : 0 < blockLength w newW * blockLength h newH := mul_pos (by omega) (by omega)
  have hb' : (0 : ℚ) < ((blockLength w newW * blockLength h newH : Int) : ℚ) := by exact_mod_cast hb
  obtain ⟨s0, s1⟩ := block_sum_bounds hw hh hW hH hx hy top (fun i j => pixels (componentAddress cacheIn w i j c)) hc.1.1 hc.1.2
    hc.2.1.1 hc.2.1.2 (fun i j a b a' b' => hpix i j c ⟨⟨a, b⟩, ⟨a', b'⟩, hc.2.2⟩)
  rw [v x y c hc, block_mean hw hh hW hH hx hy (fun i j => pixels (componentAddress cacheIn w i j c)) hc.1.1 hc.1.2 hc.2.1.1 hc.2.1.2]
  unfold limited blockAverage
  rw [min_eq_left, max_eq_right, floor_quotient _ hb]
  · exact div_nonneg (by exact_mod_cast s0) hb'.le
  · rw [div_le_iff₀ hb']
    exact_mod_cast s1

/-- A number of at most 24 bits is a value of binary32. -/
theorem dyadic_float {n : Int} {e : Nat} (h0 : 0 ≤ n) (h : n < 2 ^ 24) (he : e ≤ 149) :
    finiteOr largestFloat (nearestBinary roundEven 24 (-149) ((n : ℚ) / 2 ^ e)) = some ((n : ℚ) / 2 ^ e) := by
  norm_num at h
  have hL : (2 : ℚ) ^ 24 ≤ largestFloat := by unfold largestFloat; norm_num
  have h0q : (0 : ℚ) ≤ n := by exact_mod_cast h0
  have hq : (n : ℚ) < 2 ^ 24 := by norm_num; exact_mod_cast h
  have hp : (0 : ℚ) < 2 ^ e := by positivity
  have hy0 : 0 ≤ (n : ℚ) / 2 ^ e := div_nonneg h0q hp.le
  have hle : |(n : ℚ) / 2 ^ e| ≤ largestFloat := by
    rw [abs_of_nonneg hy0]
    exact (div_le_self h0q (one_le_pow₀ (by norm_num))).trans (by linarith)
  have ex : nearestBinary roundEven 24 (-149) ((n : ℚ) / 2 ^ e) = (n : ℚ) / 2 ^ e := by
    have hd : lastDigit 24 (-149) ((n : ℚ) / 2 ^ e) ≤ -(e : Int) ∨ n = 0 := by
      rcases eq_or_lt_of_le h0 with h0 | h0
      · exact .inr h0.symm
      left
      unfold lastDigit
      refine max_le ?_ (by omega)
      have : Int.log 2 |(n : ℚ) / 2 ^ e| < 24 - e := by
        have hne : (n : ℚ) / 2 ^ e ≠ 0 := div_ne_zero (by exact_mod_cast h0.ne') hp.ne'
        refine (Int.lt_zpow_iff_log_lt (by norm_num) (abs_pos.2 hne)).1 ?_
        rw [abs_of_nonneg hy0]
        push_cast
        rw [zpow_sub₀ (by norm_num), zpow_natCast]
        exact div_lt_div_of_pos_right (by exact_mod_cast hq) hp
      push_cast
      omega
    rcases hd with hd | rfl
    · unfold nearestBinary
      obtain ⟨k, hk⟩ := Int.eq_ofNat_of_zero_le (by omega : 0 ≤ -lastDigit 24 (-149) ((n : ℚ) / 2 ^ e) - e)
      have e1 : (n : ℚ) / 2 ^ e / (2 : ℚ) ^ lastDigit 24 (-149) ((n : ℚ) / 2 ^ e) = ((n * 2 ^ k : Int) : ℚ) := by
        have : lastDigit 24 (-149) ((n : ℚ) / 2 ^ e) = -((e + k : Nat) : Int) := by push_cast; omega
        rw [this, zpow_neg, div_inv_eq_mul, zpow_natCast, pow_add]
        push_cast
        field_simp
      rw [e1, roundEven_nearest.int, ← e1, div_mul_cancel₀ _ (two_zpow_pos _).ne']
    · simp only [Int.cast_zero, zero_div]
      have z : roundEven 0 = 0 := by exact_mod_cast roundEven_nearest.int 0
      unfold nearestBinary
      rw [zero_div, z]
      simp
  rw [ex]
  exact if_pos hle

/-- Adding up such numbers. -/
theorem dyadic_sum {M : Int} {e : Nat} (he : e ≤ 149) (g : Int → Option ℚ) (F : Int → Int) (l : List Int)
    (hg : ∀ r ∈ l, g r = some ((F r : ℚ) / 2 ^ e)) (hF : ∀ r ∈ l, 0 ≤ F r) {z : Int} (hz : 0 ≤ z) (hM : z + (l.map F).sum ≤ M) (hM' : M < 2 ^ 24) :
    l.foldl (fun s r => float32.add s (g r)) (some ((z : ℚ) / 2 ^ e)) = some (((z + (l.map F).sum : Int) : ℚ) / 2 ^ e) := by
  induction l generalizing z with
  | nil => simp
  | cons a l ih =>
    rw [List.foldl_cons, hg a (by simp)]
    have ha := hF a (by simp)
    have hs : 0 ≤ (l.map F).sum := List.sum_nonneg fun y hy => by
      obtain ⟨r, hr, rfl⟩ := List.mem_map.1 hy
      exact hF r (by simp [hr])
    rw [List.map_cons, List.sum_cons] at hM ⊢
    have e1 : float32.add (some ((z : ℚ) / 2 ^ e)) (some ((F a : ℚ) / 2 ^ e)) = some (((z + F a : Int) : ℚ) / 2 ^ e) := by
      show finiteOr largestFloat (nearestBinary roundEven 24 (-149) ((z : ℚ) / 2 ^ e + (F a : ℚ) / 2 ^ e)) = _
      rw [← add_div, ← Int.cast_add]
      exact dyadic_float (by omega) (by omega) he
    rw [e1, ih (fun r hr => hg r (by simp [hr])) (fun r hr => hF r (by simp [hr])) (by omega) (by omega), add_assoc]

/-- A list of consecutive integers. -/
theorem ascending_sum (lo n : Int) (F : Int → Int) : ((ascending ⟨lo, n⟩).map F).sum = ∑ i ∈ Finset.Ico lo (lo + n), F i := by
  unfold ascending
  rw [List.map_map]
  have : Finset.Ico lo (lo + n) = (Finset.range n.toNat).image fun k : Nat => lo + (k : Int) := by
    ext i
    simp only [Finset.mem_Ico, Finset.mem_image, Finset.mem_range]
    constructor
    · intro h
      exact ⟨(i - lo).toNat, by omega, by omega⟩
    · rintro ⟨k, hk, rfl⟩
      omega
  rw [this, Finset.sum_image (by intro a _ b _ hab; simpa using hab)]
  rw [Finset.sum_eq_multiset_sum]
  simp only [Finset.range_val, Function.comp_def]
  rfl

/-- The kernel applied to such numbers, if the number of its weights is a power of two. -/
theorem block_kernel {n lo : Int} {a b : Nat} {M : Int} {w : Int → Option ℚ} {k : Dense1 (Option ℚ)} (g : GoodKernel float32 ⟨0, n⟩ w k)
    (h0 : 0 ≤ lo) (h1 : lo + 2 ^ a ≤ n) (hab : a + b ≤ 149) (ha : a < 24)
    (hw : ∀ i, InInterval ⟨0, n⟩ i → w i = some (if i ∈ Finset.Ico lo (lo + 2 ^ a) then 1 else 0)) (f : Int → Option ℚ) (F : Int → Int)
    (hf : ∀ i ∈ Finset.Ico lo (lo + 2 ^ a), f i = some ((F i : ℚ) / 2 ^ b) ∧ 0 ≤ F i ∧ F i ≤ M) (hM : M * 2 ^ a < 2 ^ 24) :
    kernelSum float32 k f = some (((∑ i ∈ Finset.Ico lo (lo + 2 ^ a), F i : Int) : ℚ) / 2 ^ (b + a)) := by
  have hp : (1 : Int) ≤ 2 ^ a := one_le_pow₀ (by norm_num)
  have hin : ∀ i, InInterval ⟨lo, 2 ^ a⟩ i → InInterval ⟨0, n⟩ i := by
    intro i hi
    have i1 : lo ≤ i := hi.1
    have i2 : i < lo + 2 ^ a := hi.2
    exact ⟨by show 0 ≤ i; omega, by show i < 0 + n; omega⟩
  have hmem : ∀ i ∈ ascending ⟨lo, 2 ^ a⟩, i ∈ Finset.Ico lo (lo + 2 ^ a) := fun i hi => Finset.mem_Ico.2 (mem_ascending.1 hi)
  have hw1 : ∀ i ∈ ascending ⟨lo, 2 ^ a⟩, w i = some 1 := by
    intro i hi
    rw [hw i (hin i (mem_ascending.1 hi)), if_pos (hmem i hi)]
  rw [kernel_determined g lo (2 ^ a) hp (hin _ ⟨le_rfl, by show lo < lo + 2 ^ a; omega⟩)
    (hin _ ⟨by show lo ≤ lo + 2 ^ a - 1; omega, by show lo + 2 ^ a - 1 < lo + 2 ^ a; omega⟩) ?_ f]
  · have es : (ascending ⟨lo, 2 ^ a⟩).foldl (fun s i => float32.add s (w i)) float32.zero = some ((2 : ℚ) ^ a) := by
      have h24 : (2 : Int) ^ a < 2 ^ 24 := pow_lt_pow_right₀ (by norm_num) ha
      have es : ((ascending ⟨lo, 2 ^ a⟩).map fun _ => (1 : Int)).sum = 2 ^ a := by
        rw [ascending_sum]
        simp
      have := dyadic_sum (M := 2 ^ a) (e := 0) (by norm_num) w (fun _ => 1) (ascending ⟨lo, 2 ^ a⟩) (fun r hr => by
        rw [hw1 r hr]; simp) (fun _ _ => by norm_num) le_rfl (by rw [es]; simp) h24
      rw [es] at this
      have z : (some ((((0 : Int) : ℚ)) / 2 ^ 0) : Option ℚ) = float32.zero := by
        show _ = some 0
        simp
      rw [z] at this
      rw [this]
      simp
    rw [es]
    have et : ∀ r ∈ ascending ⟨lo, 2 ^ a⟩, float32.mul (f r) (float32.div (w r) (some ((2 : ℚ) ^ a))) =
        some ((F r : ℚ) / 2 ^ (b + a)) := by
      intro r hr
      obtain ⟨hfr, hF0, hF1⟩ := hf r (hmem r hr)
      have ed : float32.div (some 1) (some ((2 : ℚ) ^ a)) = some (1 / 2 ^ a) := by
        show (if (2 : ℚ) ^ a = 0 then none else finiteOr largestFloat (nearestBinary roundEven 24 (-149) (1 / 2 ^ a))) = _
        rw [if_neg (by positivity)]
        have := dyadic_float (n := 1) (e := a) (by norm_num) (by norm_num) (by omega)
        simpa using this
      rw [hw1 r hr, ed, hfr]
      show finiteOr largestFloat (nearestBinary roundEven 24 (-149) ((F r : ℚ) / 2 ^ b * (1 / 2 ^ a))) = _
      have : (F r : ℚ) / 2 ^ b * (1 / 2 ^ a) = (F r : ℚ) / 2 ^ (b + a) := by rw [pow_add]; field_simp
      rw [this]
      refine dyadic_float hF0 ?_ (by omega)
      have : M * 1 ≤ M * 2 ^ a := mul_le_mul_of_nonneg_left hp (by omega)
      omega
    have hb : ((ascending ⟨lo, 2 ^ a⟩).map F).sum ≤ M * 2 ^ a := by
      rw [ascending_sum]
      refine (Finset.sum_le_card_nsmul _ _ M fun i hi => (hf i hi).2.2).trans_eq ?_
      rw [nsmul_eq_mul, Int.card_Ico, mul_comm]
      congr 1
      have : ((lo + 2 ^ a - lo).toNat : Int) = 2 ^ a := by omega
      exact_mod_cast this
    have := dyadic_sum (M := M * 2 ^ a) (e := b + a) (by omega) (fun r => float32.mul (f r) (float32.div (w r) (some ((2 : ℚ) ^ a)))) F
      (ascending ⟨lo, 2 ^ a⟩) et (fun r hr => (hf r (hmem r hr)).2.1) le_rfl (by simpa using hb) hM
    have z : (some ((((0 : Int) : ℚ)) / 2 ^ (b + a)) : Option ℚ) = float32.zero := by
      show _ = some 0
      simp
    rw [z] at this
    rw [this, ascending_sum]
    simp
  · intro i hi
    rw [hw i (mem_ascending.1 hi)]
    show decide ((if i ∈ Finset.Ico lo (lo + 2 ^ a) then (1 : ℚ) else 0) ≠ 0) = _
    by_cases h : i ∈ Finset.Ico lo (lo + 2 ^ a)
    · rw [if_pos h, decide_eq_true (Finset.mem_Ico.1 h)]
      simp
    · rw [if_neg h, decide_eq_false (fun hc => h (Finset.mem_Ico.2 hc))]
      simp

/-- One direction of the program in binary32. -/
theorem block_direction {n newN : Int} (hn : 1 ≤ n ∧ n ≤ 2 ^ 18) (hN : 1 ≤ newN ∧ newN ≤ 2 ^ 21) (hd : newN ∣ n ∨ n ∣ newN)
    (hq : 2 * factorOf n newN * (20 * n + 11) < 2 ^ 24) :
    ∃ rate, Rational.mk2 (BitVec.ofInt 64 newN) (BitVec.ofInt 64 n) = some rate ∧
      ∀ x, InInterval ⟨0, newN⟩ x → ∃ p, kernelPosition x rate = some p ∧
        ∀ i, InInterval ⟨0, n⟩ i → weight float32 (boxOp float32Kernel) rate p i = some (if i ∈ blockOf n newN x then 1 else 0) := by
  obtain ⟨rate, e, h⟩ := box_direction_any hn hN
  refine ⟨rate, e, fun x hx => ?_⟩
  obtain ⟨p, S, hp, hS, -, hw⟩ := h x hx
  obtain rfl := block_samples hn.1 hN.1 hd hx.1 (by have := hx.2; simpa using this) hq hS
  exact ⟨p, hp, hw⟩

theorem block_cover {a b : SDim} {rate : Rational} {n newN : Int} (ea : a.val.toInterval = ⟨0, n⟩)
    (eb : b.val.toInterval = ⟨0, newN⟩) (hn : 1 ≤ n) (hN : 1 ≤ newN) (hd : newN ∣ n ∨ n ∣ newN)
    (h : ∀ x, InInterval ⟨0, newN⟩ x → ∃ p, kernelPosition x rate = some p ∧
      ∀ i, InInterval ⟨0, n⟩ i → weight float32 (boxOp float32Kernel) rate p i = some (if i ∈ blockOf n newN x then 1 else 0)) :
    KernelsCover float32 a b rate (boxOp float32Kernel) := by
  intro x hx
  have hx : InInterval b.val.toInterval x := hx
  rw [eb] at hx
  obtain ⟨p, hp, hw⟩ := h x hx
  have r := block_range hn hN hd hx.1 (by have := hx.2; simpa using this)
  have hi : InInterval ⟨0, n⟩ (blockFirst n newN x) := ⟨r.1, by show _ < 0 + n; omega⟩
  refine ⟨p, hp, blockFirst n newN x, ?_, ?_⟩
  · show InInterval a.val.toInterval _
    rw [ea]
    exact hi
  · have hm : blockFirst n newN x ∈ blockOf n newN x := Finset.mem_Ico.2 ⟨le_rfl, by omega⟩
    rw [hw _ hi, if_pos hm]
    rfl

/-- The program in binary32, with the kernels that it builds. -/
theorem block_program (top : Int) (w h newW newH : Int) (hw : 1 ≤ w ∧ w ≤ 2 ^ 18) (hh : 1 ≤ h ∧ h ≤ 2 ^ 18)
    (hW : 1 ≤ newW ∧ newW ≤ 2 ^ 21) (hH : 64 ≤ newH ∧ newH ≤ 2 ^ 21) (hx : newW ∣ w ∨ w ∣ newW) (hy : newH ∣ h ∨ h ∣ newH)
    (qx : 2 * factorOf w newW * (20 * w + 11) < 2 ^ 24) (qy : 2 * factorOf h newH * (20 * h + 11) < 2 ^ 24)
    (cacheIn cacheOut : Int) (pixels : Mem Int) (m : Mem (Option ℚ)) (R : Int → Int → Int → Int)
    (hR : ∀ (x y c : Int) (kx ky : Dense1 (Option ℚ)) (wx wy : Int → Option ℚ), IsComponent newW newH x y c →
      GoodKernel float32 ⟨0, w⟩ wx kx → GoodKernel float32 ⟨0, h⟩ wy ky →
      (∀ i, InInterval ⟨0, w⟩ i → wx i = some (if i ∈ blockOf w newW x then 1 else 0)) →
      (∀ i, InInterval ⟨0, h⟩ i → wy i = some (if i ∈ blockOf h newH y then 1 else 0)) →
      (floatQuantum top).toQuantum (clampQuantum float32 (floatQuantum top) (kernelSum float32 kx fun i => kernelSum float32 ky fun j =>
        float32.ofIndex (pixels (componentAddress cacheIn w i j c)))) = some (R x y c)) (debug : Bool) :
    ∃ (ax ay : Int → Int) (buf : Interval → Nat → Int) (pixels' : Mem Int),
      resizeImage float32 (floatQuantum top) debug w h newW newH (boxOp float32Kernel) cacheIn cacheOut 0 (4 * (w * h)) ax ay buf
        pixels m = some pixels' ∧
      (∀ x y c, IsComponent newW newH x y c → pixels' (componentAddress cacheOut newW x y c) = R x y c) ∧
      ∀ p, p < cacheOut ∨ cacheOut + 4 * (newW * newH) ≤ p → pixels' p = pixels p := by
  have big : ∀ n : Int, n ≤ 2 ^ 21 → n < 2 ^ 29 := fun n hn => lt_of_le_of_lt hn (by norm_num)
  have hw' : 1 ≤ w ∧ w < 2 ^ 29 := ⟨hw.1, big _ (hw.2.trans (by norm_num))⟩
  have hh' : 1 ≤ h ∧ h < 2 ^ 29 := ⟨hh.1, big _ (hh.2.trans (by norm_num))⟩
  have hW' : 1 ≤ newW ∧ newW < 2 ^ 29 := ⟨hW.1, big _ hW.2⟩
  have hH' : 1 ≤ newH ∧ newH < 2 ^ 29 := ⟨by omega, big _ hH.2⟩
  have bound : ∀ n : Int, n < 2 ^ 29 → 64 * n * 4 ≤ 9223372036854775807 := by
    intro n hn
    norm_num at hn
    omega
  obtain ⟨rateX, ex, hkx⟩ := block_direction hw hW hx qx
  obtain ⟨rateY, ey, hky⟩ := block_direction hh ⟨hH'.1, hH.2⟩ hy qy
  have cx : KernelsCover float32 (planarOf w h 4 0).x (planarOf newW newH 4 (4 * (w * h))).x rateX (boxOp float32Kernel) :=
    block_cover rfl rfl hw.1 hW.1 hx hkx
  have cy : KernelsCover float32 (planarOf w h 4 0).y (planarOf newW newH 4 (4 * (w * h))).y rateY (boxOp float32Kernel) :=
    block_cover rfl rfl hh.1 hH'.1 hy hky
  obtain ⟨kx, ky, gx, gy, run, -⟩ := C85_program (o := float32) (q := floatQuantum top) w h newW newH (image_size hw' hh')
    (image_size hW' hH') hH.1 (bound w hw'.2) (bound newW hW'.2) (boxOp float32Kernel) cacheIn cacheOut 0 (4 * (w * h))
    (fun x => 4 * (w * h) + 4 * (newW * newH) + x * w) (fun y => 4 * (w * h) + 4 * (newW * newH) + newW * w + y * h)
    (fun _ n => 4 * (w * h) + 4 * (newW * newH) + newW * w + newH * h + n * (256 * (w + newW))) pixels m rateX rateY ex ey
    cx cy (fun kx ky e1 e2 => C85_placement w h newW newH (image_size hw' hh') (image_size hW' hH') _ rateX rateY _ _ _ _ rfl rfl rfl
      rfl cx cy kx ky e1 e2) debug
  have key : ∀ x y c, IsComponent newW newH x y c → (floatQuantum top).toQuantum (clampQuantum float32 (floatQuantum top)
      (kernelSum float32 (kx.data x) fun i => kernelSum float32 (ky.data y) fun j =>
        float32.ofIndex (pixels (componentAddress cacheIn w i j c)))) = some (R x y c) := by
    intro x y c hc
    have hx : InInterval ⟨0, newW⟩ x := ⟨hc.1.1, by show x < 0 + newW; have := hc.1.2; omega⟩
    have hy : InInterval ⟨0, newH⟩ y := ⟨hc.2.1.1, by show y < 0 + newH; have := hc.2.1.2; omega⟩
    obtain ⟨px, a1, a2⟩ := hkx x hx
    obtain ⟨py, b1, b2⟩ := hky y hy
    exact hR x y c _ _ _ _ hc (gx x px hx a1) (gy y py hy b1) a2 b2
  obtain ⟨pixels', e, hv, hrest⟩ := run fun x y c hc => ⟨_, key x y c hc⟩
  refine ⟨_, _, _, pixels', e, fun x y c hc => ?_, hrest⟩
  exact Option.some.inj ((hv x y c hc).symm.trans (key x y c hc))

/-- C103: in binary32 the result is exactly the same, if the blocks have sides of `2^a` and `2^b` pixels and the sum over a
block is below 2^24. This is so for every factor by which an image is made larger, and for an image of the same size. -/
theorem C103_float (top : Int) (w h newW newH : Int) (hw : 1 ≤ w ∧ w ≤ 2 ^ 18) (hh : 1 ≤ h ∧ h ≤ 2 ^ 18)
    (hW : 1 ≤ newW ∧ newW ≤ 2 ^ 21) (hH : 64 ≤ newH ∧ newH ≤ 2 ^ 21) (hx : newW ∣ w ∨ w ∣ newW) (hy : newH ∣ h ∨ h ∣ newH)
    (qx : 2 * factorOf w newW * (20 * w + 11) < 2 ^ 24) (qy : 2 * factorOf h newH * (20 * h + 11) < 2 ^ 24)
    (a b : Nat) (ha : blockLength w newW = 2 ^ a) (hb : blockLength h newH = 2 ^ b) (htop : top * 2 ^ (a + b) < 2 ^ 24)
    (cacheIn cacheOut : Int) (pixels : Mem Int) (m : Mem (Option ℚ)) (hpix : ComponentsIn 0 top cacheIn w h pixels) (debug : Bool) :
    ∃ (ax ay : Int → Int) (buf : Interval → Nat → Int) (pixels' : Mem Int),
      resizeImage float32 (floatQuantum top) debug w h newW newH (boxOp float32Kernel) cacheIn cacheOut 0 (4 * (w * h)) ax ay buf
        pixels m = some pixels' ∧
      (∀ x y c, IsComponent newW newH x y c → pixels' (componentAddress cacheOut newW x y c) =
        blockAverage w h newW newH (fun i j => pixels (componentAddress cacheIn w i j c)) x y) ∧
      ∀ p, p < cacheOut ∨ cacheOut + 4 * (newW * newH) ≤ p → pixels' p = pixels p := by
  have htop0 : 0 ≤ top := by
    obtain ⟨a, b⟩ := hpix 0 0 0 ⟨⟨le_rfl, by omega⟩, ⟨le_rfl, by omega⟩, by omega, by omega⟩
    omega
  have len18 : ∀ {n newN : Int} {a : Nat}, 1 ≤ n ∧ n ≤ 2 ^ 18 → 1 ≤ newN → (newN ∣ n ∨ n ∣ newN) → blockLength n newN = 2 ^ a → a < 19 := by
    intro n newN a hn hN hd e
    have r := block_range hn.1 hN hd le_rfl (by omega)
    have : (2 : Int) ^ a < 2 ^ 19 := by
      rw [← e]
      norm_num at hn ⊢
      omega
    exact (pow_lt_pow_iff_right₀ (by norm_num)).1 this
  have hH1 : 1 ≤ newH := by omega
  have a18 := len18 hw hW.1 hx ha
  have b18 := len18 hh hH1 hy hb
  refine block_program top w h newW newH hw hh hW hH hx hy qx qy cacheIn cacheOut pixels m
    (fun x y c => blockAverage w h newW newH (fun i j => pixels (componentAddress cacheIn w i j c)) x y)
    (fun x y c kx ky wx wy hc gx gy hwx hwy => ?_) debug
  have rx := block_range hw.1 hW.1 hx hc.1.1 hc.1.2
  have ry := block_range hh.1 hH1 hy hc.2.1.1 hc.2.1.2
  set img : Int → Int → Int := fun i j => pixels (componentAddress cacheIn w i j c) with himg
  obtain ⟨s0, s1⟩ := block_sum_bounds hw.1 hh.1 hW.1 hH1 hx hy top img hc.1.1 hc.1.2
    hc.2.1.1 hc.2.1.2 (fun i j a b a' b' => hpix i j c ⟨⟨a, b⟩, ⟨a', b'⟩, hc.2.2⟩)
  have pb : (1 : Int) ≤ 2 ^ b := one_le_pow₀ (by norm_num)
  have pa : (1 : Int) ≤ 2 ^ a := one_le_pow₀ (by norm_num)
  have hm1 : top * 2 ^ b < 2 ^ 24 := by
    refine lt_of_le_of_lt ?_ htop
    rw [pow_add]
    have := mul_le_mul_of_nonneg_left pa (mul_nonneg htop0 (by omega : (0 : Int) ≤ 2 ^ b))
    linarith
  have hm0 : top < 2 ^ 24 := lt_of_le_of_lt (by have := mul_le_mul_of_nonneg_left pb htop0; linarith) hm1
  unfold blockOf at hwx hwy
  rw [ha] at hwx rx
  rw [hb] at hwy ry
  have inner : ∀ i ∈ Finset.Ico (blockFirst w newW x) (blockFirst w newW x + 2 ^ a),
      (kernelSum float32 ky fun j => float32.ofIndex (pixels (componentAddress cacheIn w i j c))) =
        some (((∑ j ∈ blockOf h newH y, img i j : Int) : ℚ) / 2 ^ b) ∧ 0 ≤ ∑ j ∈ blockOf h newH y, img i j ∧
        ∑ j ∈ blockOf h newH y, img i j ≤ top * 2 ^ b := by
    intro i hi
    have hi := Finset.mem_Ico.1 hi
    have hp : ∀ j ∈ Finset.Ico (blockFirst h newH y) (blockFirst h newH y + 2 ^ b), 0 ≤ img i j ∧ img i j ≤ top := by
      intro j hj
      have hj := Finset.mem_Ico.1 hj
      exact hpix i j c ⟨⟨by omega, by omega⟩, ⟨by omega, by omega⟩, hc.2.2⟩
    unfold blockOf
    rw [hb]
    refine ⟨?_, Finset.sum_nonneg fun j hj => (hp j hj).1, ?_⟩
    · have := block_kernel (b := 0) (M := top) gy ry.1 ry.2.2 (by omega) (by omega) hwy (fun j => float32.ofIndex (img i j)) (img i)
        (fun j hj => ⟨by rw [(integer_float (hp j hj).1 (lt_of_le_of_lt (hp j hj).2 hm0)).1]; simp, hp j hj⟩) hm1
      rw [zero_add] at this
      exact this
    · refine (Finset.sum_le_card_nsmul _ _ top fun j hj => (hp j hj).2).trans_eq ?_
      rw [nsmul_eq_mul, Int.card_Ico, mul_comm]
      congr 1
      have : ((blockFirst h newH y + 2 ^ b - blockFirst h newH y).toNat : Int) = 2 ^ b := by omega
      exact_mod_cast this
  have outer := block_kernel (b := b) (M := top * 2 ^ b) gx rx.1 rx.2.2 (by omega) (by omega) hwx
    (fun i => kernelSum float32 ky fun j => float32.ofIndex (pixels (componentAddress cacheIn w i j c)))
    (fun i => ∑ j ∈ blockOf h newH y, img i j) inner (by rw [mul_assoc, ← pow_add, add_comm b]; exact htop)
  rw [outer]
  have eb : Finset.Ico (blockFirst w newW x) (blockFirst w newW x + 2 ^ a) = blockOf w newW x := by unfold blockOf; rw [ha]
  rw [eb]
  have hL : blockLength w newW * blockLength h newH = 2 ^ (b + a) := by rw [ha, hb, pow_add, mul_comm]
  rw [hL] at s1
  show (floatQuantum top).toQuantum _ = some (blockAverage w h newW newH img x y)
  unfold blockAverage
  rw [hL]
  generalize (∑ i ∈ blockOf w newW x, ∑ j ∈ blockOf h newH y, img i j) = S at s0 s1
  have hp : (0 : ℚ) < 2 ^ (b + a) := by positivity
  have v0 : (0 : ℚ) ≤ (S : ℚ) / 2 ^ (b + a) := div_nonneg (by exact_mod_cast s0) hp.le
  have v1 : (S : ℚ) / 2 ^ (b + a) ≤ top := by rw [div_le_iff₀ hp]; exact_mod_cast s1
  have ec : clampQuantum float32 (floatQuantum top) (some ((S : ℚ) / 2 ^ (b + a))) = some ((S : ℚ) / 2 ^ (b + a)) := by
    have et : (floatQuantum top).ofQuantum (floatQuantum top).maxQuantum = some (top : ℚ) := (integer_float htop0 hm0).1
    unfold clampQuantum
    rw [et]
    have em : float32.min (some ((S : ℚ) / 2 ^ (b + a))) (some (top : ℚ)) = some ((S : ℚ) / 2 ^ (b + a)) := by
      show some (if (top : ℚ) < (S : ℚ) / 2 ^ (b + a) then _ else _) = _
      rw [if_neg (not_lt.2 v1)]
    rw [em]
    unfold floatMax
    refine if_neg ?_
    show ¬ decide ((S : ℚ) / 2 ^ (b + a) < 0) = true
    simpa using v0
  rw [ec]
  show (exactQuantum top).toQuantum _ = _
  show (if _ then some (if _ then _ else _) else none) = _
  rw [if_pos ⟨by linarith, by linarith⟩, if_pos v0]
  have := floor_quotient S (b := 2 ^ (b + a)) (by positivity)
  push_cast at this
  rw [this]

/-- The image made larger. -/
theorem block_enlarged {w h q r : Int} (hw : 1 ≤ w) (hh : 1 ≤ h) (hq : 1 ≤ q) (hr : 1 ≤ r) (img : Int → Int → Int) (x y : Int) :
    blockAverage w h (w * q) (h * r) img x y = img (x / q) (y / r) := by
  have one : ∀ {n q : Int}, 1 ≤ n → 1 ≤ q → ∀ x, blockLength n (n * q) = 1 ∧ blockFirst n (n * q) x = x / q := by
    intro n q hn hq x
    have e : n * q / n = q := Int.mul_ediv_cancel_left _ (by omega)
    unfold blockLength blockFirst
    by_cases h : n * q ≤ n
    · have : q = 1 := by nlinarith
      subst this
      rw [if_pos h, if_pos h, mul_one, Int.ediv_self (by omega)]
      simp
    · rw [if_neg h, if_neg h, e]
      exact ⟨rfl, rfl⟩
  have set : ∀ a : Int, Finset.Ico a (a + 1) = {a} := by intro a; ext i; simp; omega
  obtain ⟨l1, f1⟩ := one hw hq x
  obtain ⟨l2, f2⟩ := one hh hr y
  unfold blockAverage blockOf
  rw [l1, l2, f1, f2, set, set]
  simp

/-- Copies of pixels made smaller again. -/
theorem block_reduced {w h q r : Int} (hw : 1 ≤ w) (hh : 1 ≤ h) (hq : 1 ≤ q) (hr : 1 ≤ r) (img : Int → Int → Int) (x y : Int)
    (big : Int → Int → Int) (hb : ∀ i ∈ blockOf (w * q) w x, ∀ j ∈ blockOf (h * r) h y, big i j = img (i / q) (j / r)) :
    blockAverage (w * q) (h * r) w h big x y = img x y := by
  have len : ∀ {n q : Int}, 1 ≤ n → 1 ≤ q → ∀ x, blockLength (n * q) n = q ∧ blockFirst (n * q) n x = q * x := by
    intro n q hn hq x
    have e : n * q / n = q := Int.mul_ediv_cancel_left _ (by omega)
    have h : n ≤ n * q := by nlinarith
    unfold blockLength blockFirst
    rw [if_pos h, if_pos h, e]
    exact ⟨rfl, rfl⟩
  obtain ⟨l1, f1⟩ := len hw hq x
  obtain ⟨l2, f2⟩ := len hh hr y
  have div : ∀ {q x i : Int}, 1 ≤ q → i ∈ Finset.Ico (q * x) (q * x + q) → i / q = x := by
    intro q x i hq hi
    have hi := Finset.mem_Ico.1 hi
    have a : x ≤ i / q := (Int.le_ediv_iff_mul_le (by omega)).2 (by linarith)
    have b : i / q < x + 1 := Int.ediv_lt_of_lt_mul (by omega) (by linarith)
    omega
  unfold blockAverage
  unfold blockOf at hb ⊢
  rw [l1, l2, f1, f2] at hb ⊢
  have e : ∑ i ∈ Finset.Ico (q * x) (q * x + q), ∑ j ∈ Finset.Ico (r * y) (r * y + r), big i j = img x y * (q * r) := by
    have : ∀ i ∈ Finset.Ico (q * x) (q * x + q), ∑ j ∈ Finset.Ico (r * y) (r * y + r), big i j = r * img x y := by
      intro i hi
      have c : ∀ j ∈ Finset.Ico (r * y) (r * y + r), big i j = img x y := fun j hj => by rw [hb i hi j hj, div hq hi, div hr hj]
      rw [Finset.sum_congr rfl c, Finset.sum_const, Int.card_Ico, nsmul_eq_mul]
      congr 1
      omega
    rw [Finset.sum_congr rfl this, Finset.sum_const, Int.card_Ico, nsmul_eq_mul]
    have : ((q * x + q - q * x).toNat : Int) = q := by omega
    rw [this]
    ring
  rw [e]
  exact Int.mul_ediv_cancel _ (mul_pos (by omega) (by omega)).ne'

/-- C103: an image made larger by whole factors and then smaller by the same factors is the same image, in exact arithmetic. -/
theorem C103_round_trip {top : Int} {w h q r : Int} (hq : 1 ≤ q) (hr : 1 ≤ r) (hs : Sizes w h (w * q) (h * r)) (h64 : 64 ≤ h)
    (cacheIn cacheMid cacheOut : Int) (pixels : Mem Int) (m1 m2 : Mem ℚ) (hpix : ComponentsIn 0 top cacheIn w h pixels)
    (debug : Bool) : ∃ p1 p2, resizeExact top debug w h (w * q) (h * r) box cacheIn cacheMid pixels m1 = some p1 ∧
      resizeExact top debug (w * q) (h * r) w h box cacheMid cacheOut p1 m2 = some p2 ∧
      ∀ x y c, IsComponent w h x y c →
        p2 (componentAddress cacheOut w x y c) = pixels (componentAddress cacheIn w x y c) := by
  have hw := hs.width.1
  have hh := hs.height.1
  have hs2 : Sizes (w * q) (h * r) w h := ⟨hs.newWidth, ⟨by have := hs.newHeight.1; omega, hs.newHeight.2⟩, hs.width, h64, hs.height.2⟩
  obtain ⟨p1, e1, v1⟩ := C103_exact hs (.inr ⟨q, rfl⟩) (.inr ⟨r, rfl⟩) cacheIn cacheMid pixels m1 hpix debug
  have v1' : ∀ x y c, IsComponent (w * q) (h * r) x y c →
      p1 (componentAddress cacheMid (w * q) x y c) = pixels (componentAddress cacheIn w (x / q) (y / r) c) := by
    intro x y c hc
    rw [v1 x y c hc, block_enlarged hw hh hq hr]
  have inside : ∀ {n q x : Int}, 1 ≤ q → 0 ≤ x ∧ x < n * q → 0 ≤ x / q ∧ x / q < n := fun hq hx =>
    ⟨Int.ediv_nonneg hx.1 (by omega), Int.ediv_lt_of_lt_mul (by omega) hx.2⟩
  obtain ⟨p2, e2, v2⟩ := C103_exact hs2 (.inl ⟨q, rfl⟩) (.inl ⟨r, rfl⟩) cacheMid cacheOut p1 m2 (fun x y c hc => by
    rw [v1' x y c hc]
    exact hpix _ _ _ ⟨inside hq hc.1, inside hr hc.2.1, hc.2.2⟩) debug
  refine ⟨p1, p2, e1, e2, fun x y c hc => ?_⟩
  rw [v2 x y c hc]
  refine block_reduced hw hh hq hr (fun i j => pixels (componentAddress cacheIn w i j c)) x y _ fun i hi j hj => ?_
  have rx := block_range hs.newWidth.1 hw (.inl ⟨q, rfl⟩) hc.1.1 hc.1.2
  have ry := block_range hs2.height.1 hh (.inl ⟨r, rfl⟩) hc.2.1.1 hc.2.1.2
  have hi := Finset.mem_Ico.1 hi
  have hj := Finset.mem_Ico.1 hj
  exact v1' i j c ⟨⟨by omega, by omega⟩, ⟨by omega, by omega⟩, hc.2.2⟩

/-- C103: in `float` too, if the factors are powers of two and the larger image is not too large: made larger and then smaller
again, the image is the same, bit by bit. -/
theorem C103_float_round_trip (top : Int) (w h : Int) (a b : Nat) (hw : 1 ≤ w) (hh : 64 ≤ h) (hW : w * 2 ^ a ≤ 2 ^ 18)
    (hH : h * 2 ^ b ≤ 2 ^ 18) (qx : 2 * 2 ^ a * (20 * (w * 2 ^ a) + 11) < (2 : Int) ^ 24)
    (qy : 2 * 2 ^ b * (20 * (h * 2 ^ b) + 11) < (2 : Int) ^ 24) (htop : top * 2 ^ (a + b) < 2 ^ 24)
    (cacheIn cacheMid cacheOut : Int) (pixels : Mem Int) (m1 m2 : Mem (Option ℚ)) (hpix : ComponentsIn 0 top cacheIn w h pixels)
    (debug : Bool) :
    ∃ (ax ay ax' ay' : Int → Int) (buf buf' : Interval → Nat → Int) (p1 p2 : Mem Int),
      resizeImage float32 (floatQuantum top) debug w h (w * 2 ^ a) (h * 2 ^ b) (boxOp float32Kernel) cacheIn cacheMid 0
        (4 * (w * h)) ax ay buf pixels m1 = some p1 ∧
      resizeImage float32 (floatQuantum top) debug (w * 2 ^ a) (h * 2 ^ b) w h (boxOp float32Kernel) cacheMid cacheOut 0
        (4 * (w * 2 ^ a * (h * 2 ^ b))) ax' ay' buf' p1 m2 = some p2 ∧
      ∀ x y c, IsComponent w h x y c →
        p2 (componentAddress cacheOut w x y c) = pixels (componentAddress cacheIn w x y c) := by
  have pa : (1 : Int) ≤ 2 ^ a := one_le_pow₀ (by norm_num)
  have pb : (1 : Int) ≤ 2 ^ b := one_le_pow₀ (by norm_num)
  have htop0 : 0 ≤ top := by
    obtain ⟨a, b⟩ := hpix 0 0 0 ⟨⟨le_rfl, by omega⟩, ⟨le_rfl, by omega⟩, by omega, by omega⟩
    omega
  have le : ∀ {n q : Int}, 1 ≤ n → 1 ≤ q → n ≤ n * q := fun hn hq => by nlinarith
  have lw := le hw pa
  have lh := le (by omega : 1 ≤ h) pb
  have f1 : ∀ {n q : Int}, 1 ≤ n → 1 ≤ q → factorOf n (n * q) = q ∧ factorOf (n * q) n = q := by
    intro n q hn hq
    have e1 : n * q / n = q := Int.mul_ediv_cancel_left _ (by omega)
    have e2 : n / (n * q) ≤ q := by
      refine Int.ediv_le_of_le_mul (by nlinarith) ?_
      have := le hn hq
      nlinarith [mul_le_mul_of_nonneg_right hq (by omega : 0 ≤ n * q)]
    unfold factorOf
    rw [e1]
    exact ⟨max_eq_right e2, max_eq_left e2⟩
  have l1 : ∀ {n q : Int}, 1 ≤ n → 1 ≤ q → blockLength n (n * q) = 1 ∧ blockLength (n * q) n = q := by
    intro n q hn hq
    have e1 : n * q / n = q := Int.mul_ediv_cancel_left _ (by omega)
    unfold blockLength
    rw [if_pos (le hn hq), e1]
    refine ⟨?_, rfl⟩
    split_ifs with hle
    · have : q = 1 := by nlinarith
      rw [this, mul_one]
      exact Int.ediv_self (by omega)
    · rfl
  obtain ⟨ax, ay, buf, p1, e1, v1, -⟩ := C103_float top w h (w * 2 ^ a) (h * 2 ^ b) ⟨hw, by omega⟩ ⟨by omega, by omega⟩
    ⟨by omega, by omega⟩ ⟨by omega, by omega⟩ (.inr ⟨_, rfl⟩) (.inr ⟨_, rfl⟩)
    (by rw [(f1 hw pa).1]; nlinarith) (by rw [(f1 (by omega) pb).1]; nlinarith) 0 0 (by rw [(l1 hw pa).1]; rfl)
    (by rw [(l1 (by omega) pb).1]; rfl) (by
      have : (1 : Int) ≤ 2 ^ (a + b) := one_le_pow₀ (by norm_num)
      norm_num only
      nlinarith) cacheIn cacheMid pixels m1 hpix debug
  have v1' : ∀ x y c, IsComponent (w * 2 ^ a) (h * 2 ^ b) x y c →
      p1 (componentAddress cacheMid (w * 2 ^ a) x y c) = pixels (componentAddress cacheIn w (x / 2 ^ a) (y / 2 ^ b) c) := by
    intro x y c hc
    rw [v1 x y c hc, block_enlarged hw (by omega) pa pb]
  have inside : ∀ {n q x : Int}, 1 ≤ q → 0 ≤ x ∧ x < n * q → 0 ≤ x / q ∧ x / q < n := fun hq hx =>
    ⟨Int.ediv_nonneg hx.1 (by omega), Int.ediv_lt_of_lt_mul (by omega) hx.2⟩
  obtain ⟨ax', ay', buf', p2, e2, v2, -⟩ := C103_float top (w * 2 ^ a) (h * 2 ^ b) w h ⟨by omega, hW⟩ ⟨by omega, hH⟩
    ⟨hw, by omega⟩ ⟨hh, by omega⟩ (.inl ⟨_, rfl⟩) (.inl ⟨_, rfl⟩)
    (by rw [(f1 hw pa).2]; exact qx) (by rw [(f1 (by omega) pb).2]; exact qy) a b (l1 hw pa).2 (l1 (by omega) pb).2 htop cacheMid
    cacheOut p1 m2 (fun x y c hc => by
      rw [v1' x y c hc]
      exact hpix _ _ _ ⟨inside pa hc.1, inside pb hc.2.1, hc.2.2⟩) debug
  refine ⟨ax, ay, ax', ay', buf, buf', p1, p2, e1, e2, fun x y c hc => ?_⟩
  rw [v2 x y c hc]
  refine block_reduced hw (by omega) pa pb (fun i j => pixels (componentAddress cacheIn w i j c)) x y _ fun i hi j hj => ?_
  have rx := block_range (by omega) hw (.inl ⟨2 ^ a, rfl⟩) hc.1.1 hc.1.2
  have ry := block_range (by omega) (by omega) (.inl ⟨2 ^ b, rfl⟩) hc.2.1.1 hc.2.1.2
  have hi := Finset.mem_Ico.1 hi
  have hj := Finset.mem_Ico.1 hj
  exact v1' i j c ⟨⟨by omega, by omega⟩, ⟨by omega, by omega⟩, hc.2.2⟩

-- An 8-bit image of 100 by 64 pixels, made four times as large and small again, in `float`.
example (pixels : Mem Int) (hpix : ComponentsIn 0 255 0 100 64 pixels) (m1 m2 : Mem (Option ℚ)) :
    ∃ (ax ay ax' ay' : Int → Int) (buf buf' : Interval → Nat → Int) (p1 p2 : Mem Int),
      resizeImage float32 (floatQuantum 255) true 100 64 400 256 (boxOp float32Kernel) 0 100000 0 25600 ax ay buf pixels m1 =
        some p1 ∧
      resizeImage float32 (floatQuantum 255) true 400 256 100 64 (boxOp float32Kernel) 100000 900000 0 409600 ax' ay' buf' p1 m2 =
        some p2 ∧
      ∀ x y c, IsComponent 100 64 x y c → p2 (componentAddress 900000 100 x y c) = pixels (componentAddress 0 100 x y c) := by
  have := C103_float_round_trip 255 100 64 2 2 (by norm_num) (by norm_num) (by norm_num) (by norm_num) (by norm_num) (by norm_num)
    (by norm_num) 0 100000 900000 pixels m1 m2 hpix true
  norm_num at this ⊢
  exact this

/-- C103, negative part: other factors lose. A white image (all components 255) of 9 columns and 64 rows, made smaller by the
factor 9 in `float`, is not white: all components are 254, because the ninth parts of 255 add up to less than 255 and the
conversion to integers drops the fraction. -/
theorem C103_white_counterexample (cacheIn cacheOut : Int) (m : Mem (Option ℚ)) (debug : Bool) :
    (∀ x y, 0 ≤ x → x < 1 → 0 ≤ y → y < 64 → blockAverage 9 64 1 64 (fun _ _ => 255) x y = 255) ∧
    ∃ (ax ay : Int → Int) (buf : Interval → Nat → Int) (pixels' : Mem Int),
      resizeImage float32 (floatQuantum 255) debug 9 64 1 64 (boxOp float32Kernel) cacheIn cacheOut 0 2304 ax ay buf
        (fun _ => 255) m = some pixels' ∧
      ∀ x y c, IsComponent 1 64 x y c → pixels' (componentAddress cacheOut 1 x y c) = 254 := by
  constructor
  · intro x y hx hx' hy hy'
    have e1 : blockLength 9 1 = 9 := by decide
    have e2 : blockLength 64 64 = 1 := by decide
    unfold blockAverage blockOf
    rw [e1, e2]
    simp
  · have run := block_program 255 9 64 1 64 (by norm_num) (by norm_num) (by norm_num) (by norm_num) (.inl (by norm_num))
      (.inl (by norm_num)) (by unfold factorOf; norm_num) (by unfold factorOf; norm_num) cacheIn cacheOut (fun _ => 255) m
      (fun _ _ _ => 254) (by
        intro x y c kx ky wx wy hc gx gy hwx hwy
        have ex : blockOf 9 1 x = Finset.Ico 0 9 := by
          obtain rfl : x = 0 := by have := hc.1; omega
          rfl
        have ey : blockOf 64 64 y = Finset.Ico y (y + 2 ^ 0) := by
          have e1 : blockLength 64 64 = 1 := by decide
          have e2 : blockFirst 64 64 y = y := by unfold blockFirst; norm_num
          unfold blockOf
          rw [e1, e2]
          rfl
        rw [ey] at hwy
        rw [ex] at hwx
        have inner := block_kernel (b := 0) (M := 255) gy hc.2.1.1 (by have := hc.2.1.2; omega) (by norm_num) (by norm_num) hwy
          (fun _ => float32.ofIndex 255) (fun _ => 255) (fun j _ => ⟨by decide +kernel, by norm_num, by norm_num⟩) (by norm_num)
        have inner' : kernelSum float32 ky (fun _ => float32.ofIndex 255) = some 255 := by
          rw [inner]
          simp
        have hin : ∀ i ∈ ascending ⟨0, 9⟩, wx i = some 1 := by
          intro i hi
          have hi := mem_ascending.1 hi
          have hm : i ∈ Finset.Ico 0 9 := Finset.mem_Ico.2 hi
          rw [hwx i hi, if_pos hm]
        show (floatQuantum 255).toQuantum (clampQuantum float32 (floatQuantum 255) (kernelSum float32 kx fun _ => kernelSum float32 ky
          fun _ => float32.ofIndex 255)) = some 254
        rw [inner', kernel_determined gx 0 9 (by norm_num) ⟨by norm_num, by norm_num⟩ ⟨by norm_num, by norm_num⟩ (by
          intro i hi
          rw [hin i hi]
          have hi : 0 ≤ i ∧ i < 0 + 9 := mem_ascending.1 hi
          rw [decide_eq_true hi]
          rfl)]
        have c1 : (ascending ⟨0, 9⟩).foldl (fun s i => float32.add s (wx i)) float32.zero = some 9 := by
          have : ascending ⟨0, 9⟩ = [0, 1, 2, 3, 4, 5, 6, 7, 8] := by decide
          rw [this] at hin ⊢
          simp only [List.foldl_cons, List.foldl_nil]
          rw [hin 0 (by simp), hin 1 (by simp), hin 2 (by simp), hin 3 (by simp), hin 4 (by simp), hin 5 (by simp), hin 6 (by simp),
            hin 7 (by simp), hin 8 (by simp)]
          decide +kernel
        rw [c1]
        have : ascending ⟨0, 9⟩ = [0, 1, 2, 3, 4, 5, 6, 7, 8] := by decide
        rw [this] at hin ⊢
        simp only [List.foldl_cons, List.foldl_nil]
        rw [hin 0 (by simp), hin 1 (by simp), hin 2 (by simp), hin 3 (by simp), hin 4 (by simp), hin 5 (by simp), hin 6 (by simp),
          hin 7 (by simp), hin 8 (by simp)]
        decide +kernel) debug
    obtain ⟨ax, ay, buf, pixels', e, hv, -⟩ := run
    exact ⟨ax, ay, buf, pixels', e, hv⟩

/-- Four columns with the values 0, 1, 1 and 2. -/
def stepPixels : Mem Int := fun p => (p / 4 % 4 + 1) / 2

/-- C103, negative part: making an image smaller in two steps is not the same as in one step, even in exact arithmetic, because
each step drops the fraction. -/
theorem C103_steps_counterexample (m : Mem ℚ) (debug : Bool) : ∃ p1 p2 p3,
    resizeExact 255 debug 4 64 2 64 box 0 1024 stepPixels m = some p1 ∧
    resizeExact 255 debug 2 64 1 64 box 1024 2048 p1 m = some p2 ∧
    resizeExact 255 debug 4 64 1 64 box 0 2048 stepPixels m = some p3 ∧
    ∀ y c, 0 ≤ y → y < 64 → 0 ≤ c → c < 4 →
      p2 (componentAddress 2048 1 0 y c) = 0 ∧ p3 (componentAddress 2048 1 0 y c) = 1 := by
  have av : ∀ {w newW q : Int}, blockLength w newW = q → ∀ {x f : Int}, blockFirst w newW x = f → ∀ (img : Int → Int → Int) (y : Int),
      blockAverage w 64 newW 64 img x y = (∑ i ∈ Finset.Ico f (f + q), img i y) / q := by
    intro w newW q hq x f hf img y
    have e1 : blockLength 64 64 = 1 := by decide
    have e2 : blockFirst 64 64 y = y := by unfold blockFirst; norm_num
    have set : Finset.Ico y (y + 1) = {y} := by ext i; simp; omega
    unfold blockAverage blockOf
    rw [hq, hf, e1, e2, set]
    simp
  have px : ∀ i j c, 0 ≤ i → i < 4 → 0 ≤ c → c < 4 → stepPixels (componentAddress 0 4 i j c) = (i + 1) / 2 := by
    intro i j c hi hi' hc hc'
    unfold stepPixels componentAddress
    omega
  have hpix : ComponentsIn 0 255 0 4 64 stepPixels := by
    intro x y c hc
    rw [px x y c hc.1.1 hc.1.2 hc.2.2.1 hc.2.2.2]
    have := hc.1
    omega
  obtain ⟨p1, e1, v1⟩ := C103_exact (w := 4) (h := 64) (newW := 2) (newH := 64) ⟨by norm_num, by norm_num, by norm_num, by norm_num⟩
    (.inl (by norm_num)) (.inl (by norm_num)) 0 1024 stepPixels m hpix debug
  have w1 : ∀ x y c, IsComponent 2 64 x y c → p1 (componentAddress 1024 2 x y c) = if x = 0 then 0 else 1 := by
    intro x y c hc
    obtain ⟨⟨x0, x1⟩, -, c0, c1⟩ := id hc
    rw [v1 x y c hc, av (by decide : blockLength 4 2 = 2) (by unfold blockFirst; norm_num : blockFirst 4 2 x = 2 * x)]
    have set : Finset.Ico (2 * x) (2 * x + 2) = {2 * x, 2 * x + 1} := by ext i; simp; omega
    rw [set, Finset.sum_pair (by omega), px _ y c (by omega) (by omega) c0 c1, px _ y c (by omega) (by omega) c0 c1]
    split_ifs <;> omega
  obtain ⟨p2, e2, v2⟩ := C103_exact (w := 2) (h := 64) (newW := 1) (newH := 64) ⟨by norm_num, by norm_num, by norm_num, by norm_num⟩
    (.inl (by norm_num)) (.inl (by norm_num)) 1024 2048 p1 m (top := 255) (fun x y c hc => by
      rw [w1 x y c hc]
      split_ifs <;> omega) debug
  obtain ⟨p3, e3, v3⟩ := C103_exact (w := 4) (h := 64) (newW := 1) (newH := 64) ⟨by norm_num, by norm_num, by norm_num, by norm_num⟩
    (.inl (by norm_num)) (.inl (by norm_num)) 0 2048 stepPixels m hpix debug
  refine ⟨p1, p2, p3, e1, e2, e3, fun y c y0 y1 c0 c1 => ⟨?_, ?_⟩⟩
  · rw [v2 0 y c ⟨by norm_num, ⟨y0, y1⟩, c0, c1⟩, av (by decide : blockLength 2 1 = 2) (by decide : blockFirst 2 1 0 = 0)]
    have set : Finset.Ico (0 : Int) (0 + 2) = {0, 1} := by decide
    rw [set, Finset.sum_pair (by norm_num), w1 0 y c ⟨by norm_num, ⟨y0, y1⟩, c0, c1⟩, w1 1 y c ⟨by norm_num, ⟨y0, y1⟩, c0, c1⟩]
    norm_num
  · rw [v3 0 y c ⟨by norm_num, ⟨y0, y1⟩, c0, c1⟩, av (by decide : blockLength 4 1 = 4) (by decide : blockFirst 4 1 0 = 0)]
    have set : Finset.Ico (0 : Int) (0 + 4) = {0, 1, 2, 3} := by decide
    rw [set, Finset.sum_congr rfl fun i hi => px i y c (by simp at hi; omega) (by simp at hi; omega) c0 c1]
    decide

/-- An 8-bit image of 4096 by 2160 pixels made smaller by the factors 4 and 2 has the averages of blocks of 8 pixels. -/
example (pixels : Mem Int) (m : Mem (Option ℚ)) (hpix : ComponentsIn 0 255 0 4096 2160 pixels) :
    ∃ ax ay buf pixels', resizeImage float32 (floatQuantum 255) true 4096 2160 1024 1080 (boxOp float32Kernel) 0 100000000 0
        (4 * (4096 * 2160)) ax ay buf pixels m = some pixels' ∧
      ∀ x y c, IsComponent 1024 1080 x y c → pixels' (componentAddress 100000000 1024 x y c) =
        (∑ i ∈ Finset.Ico (4 * x) (4 * x + 4), ∑ j ∈ Finset.Ico (2 * y) (2 * y + 2), pixels (componentAddress 0 4096 i j c)) / 8 := by
  obtain ⟨ax, ay, buf, pixels', e, hv, -⟩ := C103_float 255 4096 2160 1024 1080 (by norm_num) (by norm_num) (by norm_num) (by norm_num)
    (.inl (by norm_num)) (.inl (by norm_num)) (by unfold factorOf; norm_num) (by unfold factorOf; norm_num) 2 1 (by decide) (by decide)
    (by norm_num) 0 100000000 pixels m hpix true
  refine ⟨ax, ay, buf, pixels', e, fun x y c hc => (hv x y c hc).trans ?_⟩
  have e1 : blockLength 4096 1024 = 4 := by decide
  have e2 : blockLength 2160 1080 = 2 := by decide
  have e3 : blockFirst 4096 1024 x = 4 * x := by unfold blockFirst; norm_num
  have e4 : blockFirst 2160 1080 y = 2 * y := by unfold blockFirst; norm_num
  unfold blockAverage blockOf
  rw [e1, e2, e3, e4]
  norm_num

/-- An 8-bit image of 640 by 480 pixels made larger by the factors 3 and 5 repeats each pixel 15 times. -/
example (pixels : Mem Int) (m : Mem (Option ℚ)) (hpix : ComponentsIn 0 255 0 640 480 pixels) :
    ∃ ax ay buf pixels', resizeImage float32 (floatQuantum 255) true 640 480 1920 2400 (boxOp float32Kernel) 0 100000000 0
        (4 * (640 * 480)) ax ay buf pixels m = some pixels' ∧
      ∀ x y c, IsComponent 1920 2400 x y c → pixels' (componentAddress 100000000 1920 x y c) =
        pixels (componentAddress 0 640 (x / 3) (y / 5) c) := by
  obtain ⟨ax, ay, buf, pixels', e, hv, -⟩ := C103_float 255 640 480 1920 2400 (by norm_num) (by norm_num) (by norm_num) (by norm_num)
    (.inr (by norm_num)) (.inr (by norm_num)) (by unfold factorOf; norm_num) (by unfold factorOf; norm_num) 0 0 (by decide) (by decide)
    (by norm_num) 0 100000000 pixels m hpix true
  refine ⟨ax, ay, buf, pixels', e, fun x y c hc => (hv x y c hc).trans ?_⟩
  have e1 : blockLength 640 1920 = 1 := by decide
  have e2 : blockLength 480 2400 = 1 := by decide
  have e3 : blockFirst 640 1920 x = x / 3 := by unfold blockFirst; norm_num
  have e4 : blockFirst 480 2400 y = y / 5 := by unfold blockFirst; norm_num
  have one : ∀ a : Int, Finset.Ico a (a + 1) = {a} := by intro a; ext i; simp; omega
  unfold blockAverage blockOf
  rw [e1, e2, e3, e4, one, one]
  simp

/-- The blocks: 6 pixels become 2 or 12. -/
example : (blockFirst 6 2 1, blockLength 6 2, blockFirst 6 12 7, blockLength 6 12) = (3, 3, 3, 1) := by decide

end Nda
