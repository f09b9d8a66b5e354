import Verif.Lemmas.ResampleBenchmark
import Verif.Props.BoxFloat
import Verif.Props.Lanczos
/-
C100: the program that measures how long `resample` takes.
-/
namespace Nda
open Spec Kernel

section
variable {F : Type} {o : KernelOps F}

/-- C100: for any table of kernels that build kernels for both directions and have weights that make zero of zero, the
program ends, prints one row for each kernel, in the order of the table, and resamples at least once for each; input and
output are zero at the end. -/
theorem C100_run (w h newW newH : Int) (hi : ImageSize w h 4) (ho : ImageSize newW newH 4) (h64 : 64 ≤ newH)
    (hfit1 : 64 * w * 4 ≤ 9223372036854775807) (hfit2 : 64 * newW * 4 ≤ 9223372036854775807)
    (table : List (String × (F → F))) (bi bo : Int) (hblocks : BlocksApart bi (4 * (w * h)) bo (4 * (newW * newH)))
    (at_ : CallAddresses) (rateX rateY : Rational)
    (hrx : Rational.mk2 (BitVec.ofInt 64 newW) (BitVec.ofInt 64 w) = some rateX)
    (hry : Rational.mk2 (BitVec.ofInt 64 newH) (BitVec.ofInt 64 h) = some rateY)
    (hkx : ∀ e ∈ table, KernelsCover o.toFloatOps (planarOf w h 4 bi).x (planarOf newW newH 4 bo).x rateX e.2)
    (hky : ∀ e ∈ table, KernelsCover o.toFloatOps (planarOf w h 4 bi).y (planarOf newW newH 4 bo).y rateY e.2)
    (hsep : ∀ e ∈ table, ∀ n kx ky, buildKernels o.toFloatOps ⟨0, w⟩ ⟨0, newW⟩ rateX e.2 = some kx →
      buildKernels o.toFloatOps ⟨0, h⟩ ⟨0, newH⟩ rateY e.2 = some ky →
      SeparateObjects (planarOf w h 4 bi) (planarOf newW newH 4 bo) bi bo kx ky (at_.ax n) (at_.ay n) (at_.buf n))
    (hzx : ∀ e ∈ table, ∀ x p k, InInterval ⟨0, newW⟩ x → kernelPosition x rateX = some p →
      GoodKernel o.toFloatOps ⟨0, w⟩ (weight o.toFloatOps e.2 rateX p) k →
      ∀ i, InInterval k.dom i → o.add o.zero (o.mul o.zero (k.data i)) = o.zero)
    (hzy : ∀ e ∈ table, ∀ x p k, InInterval ⟨0, newH⟩ x → kernelPosition x rateY = some p →
      GoodKernel o.toFloatOps ⟨0, h⟩ (weight o.toFloatOps e.2 rateY p) k →
      ∀ i, InInterval k.dom i → o.add o.zero (o.mul o.zero (k.data i)) = o.zero)
    (clock : Nat → Nat → Int) (hc : ∀ j, j < table.length → Measured (clock j)) (debug : Bool) (m : Mem F) :
    ∃ rows m', runBenchmarks o ieeeDouble debug table w h newW newH bi bo at_ clock m = some (rows, m') ∧
      rows.map Prod.fst = table.map Prod.fst ∧ (∀ j r, rows[j]? = some r → TimePrinted (clock j) r.2) ∧
      AllComponents o.zero w h bi m' ∧ AllComponents o.zero newW newH bo m' := by
  set A := planarOf w h 4 bi with hA
  set B := planarOf newW newH 4 bo with hB
  -- after the construction
  set m1 := constructImage o.toFloatOps A m with hm1
  set m2 := constructImage o.toFloatOps B m1 with hm2
  have zero : ∀ {w h b : Int} (hs : ImageSize w h 4) (m : Mem F),
      AllComponents o.zero w h b (constructImage o.toFloatOps (planarOf w h 4 b) m) := by
    intro w h b hs m x y c hc
    have := (C19_fill ⟨(planarOf w h 4 b).base, values (planarOf w h 4 b).dims⟩ b rfl (planar_nonNeg hs) o.zero m).1 [x, y, c]
      (planar_inBox.2 ⟨x, y, c, rfl, hc⟩)
    have ea : b + offsetOf (values (planarOf w h 4 b).dims) [x, y, c] = pixelAddress (planarOf w h 4 b) b x y c :=
      planar_address x y c
    rw [← planar_component, ← ea]
    exact this
  have hin : AllComponents o.zero w h bi m2 := by
    intro x y c hcc
    rw [← zero hi m x y c hcc]
    refine (C19_fill ⟨B.base, values B.dims⟩ bo rfl (planar_nonNeg ho) o.zero m1).2 _ ?_
    intro i hbox e
    obtain ⟨x', y', z', rfl, k1, k2, k3⟩ := planar_inBox.1 hbox
    have e' : bo + offsetOf (values B.dims) [x', y', z'] = pixelAddress B bo x' y' z' := planar_address x' y' z'
    have r1 := planar_pixel_range hi (p := bi + (c * h + y) * w + x) ⟨x, y, c, by
      show 0 ≤ x ∧ x < 0 + w; rw [zero_add]; exact hcc.1, by show 0 ≤ y ∧ y < 0 + h; rw [zero_add]; exact hcc.2.1,
      by show 0 ≤ c ∧ c < 0 + 4; rw [zero_add]; exact hcc.2.2, (planar_component w h bi x y c).symm⟩
    have r2 := planar_pixel_range ho (p := bi + (c * h + y) * w + x) (buf := bo) ⟨x', y', z', by
      show 0 ≤ x' ∧ x' < 0 + newW; rwa [zero_add], by show 0 ≤ y' ∧ y' < 0 + newH; rwa [zero_add],
      by show 0 ≤ z' ∧ z' < 0 + 4; rwa [zero_add], e.trans e'⟩
    rcases hblocks with hb | hb
    · omega
    · omega
  have hout : AllComponents o.zero newW newH bo m2 := zero ho m1
  obtain ⟨rows, n', m', e, ⟨z1, z2⟩, -, -, h1, h2⟩ := rows_run (op := resampleCall o debug A B rateX rateY at_)
    (Inv := fun m => AllComponents o.zero w h bi m ∧ AllComponents o.zero newW newH bo m) table clock 0 m2
    (fun e he n m hm => call_zero w h newW newH hi ho h64 hfit1 hfit2 e.2 bi bo at_ rateX rateY (hkx e he) (hky e he) (hsep e he)
      (hzx e he) (hzy e he) debug n m hm.1) hc ⟨hin, hout⟩
  refine ⟨rows, m', ?_, h1, h2, z1, z2⟩
  unfold runBenchmarks
  rw [planarImage_eq hi, planarImage_eq ho]
  dsimp only
  have r1 : Rational.mk2 (BitVec.ofInt 64 (planarOf newW newH 4 bo).x.val.extent)
      (BitVec.ofInt 64 (planarOf w h 4 bi).x.val.extent) = some rateX := hrx
  have r2 : Rational.mk2 (BitVec.ofInt 64 (planarOf newW newH 4 bo).y.val.extent)
      (BitVec.ofInt 64 (planarOf w h 4 bi).y.val.extent) = some rateY := hry
  rw [r1, r2]
  simp only [Option.bind_eq_bind, Option.bind_some]
  rw [e]
  rfl

end

/-- The addresses of all objects one after the other; each call uses the same. -/
def placedCalls (w h newW newH : Int) : CallAddresses where
  ax _ x := 4 * (w * h) + 4 * (newW * newH) + x * w
  ay _ y := 4 * (w * h) + 4 * (newW * newH) + newW * w + y * h
  buf _ _ n := 4 * (w * h) + 4 * (newW * newH) + newW * w + newH * h + n * (256 * (w + newW))

/-- The kernels of the table cover each direction, in exact arithmetic. -/
theorem exact_table_cover {n newN : Int} (hn : 1 ≤ n ∧ n < 2 ^ 29) (hN : 1 ≤ newN ∧ newN < 2 ^ 29) :
    ∃ rate, Rational.mk2 (BitVec.ofInt 64 newN) (BitVec.ofInt 64 n) = some rate ∧
      ∀ e ∈ benchmarkTable (fieldKernelOps ℝ) (fun s => lanczos s 3), ∀ x, InInterval ⟨0, newN⟩ x → ∃ p, kernelPosition x rate = some p ∧
        ∃ i, InInterval ⟨0, n⟩ i ∧ (fieldOps ℝ).nonZero (weight (fieldOps ℝ) e.2 rate p i) = true := by
  have hn' : n < 536870912 := by have := hn.2; norm_num at this; exact this
  have hN' : newN < 536870912 := by have := hN.2; norm_num at this; exact this
  obtain ⟨rate, e, hc, hv, hp, r1, r2⟩ := rate_make (n := newN) (d := n) hN.1 (by omega) hn.1 (by omega)
  have hnq : (0 : ℚ) < n := by exact_mod_cast (by omega : 0 < n)
  have hm : MapsInto ⟨0, n⟩ ⟨0, newN⟩ (value rate) := ⟨by simp, by
    rw [hv]; push_cast; rw [zero_add, zero_add, div_mul_cancel₀ _ hnq.ne']⟩
  refine ⟨rate, e, fun entry he x hx => ?_⟩
  have hx0 : 0 ≤ x := hx.1
  have hx1 : x < 0 + newN := hx.2
  obtain ⟨p, ep, -, vp⟩ := C46_position x rate hc hp (by rw [abs_of_nonneg hx0]; norm_num; omega)
    (by norm_num; omega) (by norm_num; omega)
  refine ⟨p, ep, ?_⟩
  have key : 0 < ∑ i ∈ Finset.Ico (0 : Int) (0 + n), weight (fieldOps ℝ) entry.2 rate p i := by
    have poly : ∀ k : ℝ → ℝ, PolynomialKernel k → 0 < ∑ i ∈ Finset.Ico (0 : Int) (0 + n), weight (fieldOps ℝ) k rate p i :=
      fun k hk => C62_sum_positive hk ⟨0, n⟩ ⟨0, newN⟩ rate hc hp hm x hx p vp
    simp only [benchmarkTable, List.mem_cons, List.not_mem_nil, or_false] at he
    rcases he with rfl | rfl | rfl | rfl | rfl
    · rw [show boxOp (fieldKernelOps ℝ) = box from funext fun s => (C91_exact s).1]; exact poly _ (.inl rfl)
    · rw [show linearOp (fieldKernelOps ℝ) = linear from funext fun s => (C91_exact s).2.1]; exact poly _ (.inr (.inl rfl))
    · rw [show interpolatingQuadraticOp (fieldKernelOps ℝ) = interpolatingQuadratic from funext fun s => (C91_exact s).2.2.1]
      exact poly _ (.inr (.inr (.inl rfl)))
    · rw [show interpolatingCubicOp (fieldKernelOps ℝ) = interpolatingCubic from funext fun s => (C91_exact s).2.2.2.1]
      exact poly _ (.inr (.inr (.inr (.inl rfl))))
    · exact C62_lanczos_sum_positive 3 (by norm_num) ⟨0, n⟩ ⟨0, newN⟩ rate hc hp hm x hx p vp
  obtain ⟨i, hi, hne⟩ := Finset.exists_ne_zero_of_sum_ne_zero key.ne'
  exact ⟨i, Finset.mem_Ico.1 hi, by simpa [fieldOps] using hne⟩

/-- C100: the program in exact arithmetic: for all images of less than 2^29 by 2^29 pixels, and at least 64 rows in the output,
it ends, prints five rows and returns 0; each row is the time of a call. -/
theorem C100_exact (w h newW newH : Int) (hw : 1 ≤ w ∧ w < 2 ^ 29) (hh : 1 ≤ h ∧ h < 2 ^ 29) (hW : 1 ≤ newW ∧ newW < 2 ^ 29)
    (hH : 64 ≤ newH ∧ newH < 2 ^ 29) (more : List Int) (clock : Nat → Nat → Int) (hc : ∀ j, j < 5 → Measured (clock j)) (debug : Bool)
    (m : Mem ℝ) :
    ∃ rows, resampleBenchmarkMain (fieldKernelOps ℝ) ieeeDouble debug (benchmarkTable (fieldKernelOps ℝ) fun s => lanczos s 3)
        (w :: h :: newW :: newH :: more) 0 (4 * (w * h)) (placedCalls w h newW newH) clock m = some (0, rows) ∧
      rows.map Prod.fst = ["box", "linear", "quadratic", "cubic", "lanczos3"] ∧
      ∀ j r, rows[j]? = some r → TimePrinted (clock j) r.2 := by
  have hi := image_size hw hh
  have ho := image_size hW ⟨by omega, hH.2⟩
  have fit : ∀ n : Int, n < 2 ^ 29 → 64 * n * 4 ≤ 9223372036854775807 := by
    intro n hn
    norm_num at hn
    omega
  obtain ⟨rateX, ex, cx⟩ := exact_table_cover hw hW
  obtain ⟨rateY, ey, cy⟩ := exact_table_cover hh ⟨by omega, hH.2⟩
  obtain ⟨rows, m', e, h1, h2, -⟩ := C100_run (o := fieldKernelOps ℝ) w h newW newH hi ho hH.1 (fit w hw.2) (fit newW hW.2)
    (benchmarkTable (fieldKernelOps ℝ) fun s => lanczos s 3) 0 (4 * (w * h)) (.inl (by omega)) (placedCalls w h newW newH) rateX rateY
    ex ey cx cy
    (fun e he n kx ky ekx eky => C85_placement w h newW newH hi ho e.2 rateX rateY _ _ _ _ rfl rfl rfl rfl (cx e he) (cy e he) kx ky
      ekx eky)
    (fun e _ x p k _ _ _ i _ => by simp [fieldKernelOps, fieldOps]) (fun e _ x p k _ _ _ i _ => by simp [fieldKernelOps, fieldOps])
    clock hc debug m
  refine ⟨rows, ?_, h1, h2⟩
  unfold resampleBenchmarkMain
  dsimp only
  rw [e]
  rfl

/-- A kernel whose weights are good for all positions, in binary32. -/
def FloatWeights (n newN : Int) (N : Nat) (k : Option ℚ → Option ℚ) : Prop :=
  ∀ rate, Rational.mk2 (BitVec.ofInt 64 newN) (BitVec.ofInt 64 n) = some rate →
    ∀ x, InInterval ⟨0, newN⟩ x → ∃ p, kernelPosition x rate = some p ∧
      GoodWeights IsFloat (fun x => x.getD 0) ((2 : ℚ)⁻¹ ^ 24) largestFloat N ⟨0, n⟩ (weight float32 k rate p)

/-- The kernels of the table have good weights in binary32, if the Lanczos kernel has. -/
theorem float_table_weights {n newN : Int} (hn : 1 ≤ n ∧ n < 2 ^ 29) (hN : 1 ≤ newN ∧ newN ≤ 2 ^ 21) {N : Nat}
    (h1 : 9 / 2 ≤ N * min ((newN : ℚ) / n) 1) (h2 : N ≤ 500) (h3 : N * (2 * n + 8) ≤ 100000) {lanczos3 : Option ℚ → Option ℚ}
    (hl : FloatWeights n newN N lanczos3) : ∀ e ∈ benchmarkTable float32Kernel lanczos3, FloatWeights n newN N e.2 := by
  have hN1 : 1 ≤ N := by
    rcases Nat.eq_zero_or_pos N with rfl | h
    · norm_num at h1
    · exact h
  have hn18 : n ≤ 2 ^ 18 := by
    have : (1 : Int) * (2 * n + 8) ≤ N * (2 * n + 8) := mul_le_mul_of_nonneg_right (by exact_mod_cast hN1) (by omega)
    norm_num
    omega
  have hN29 : newN < 2 ^ 29 := lt_of_le_of_lt hN.2 (by norm_num)
  have poly : ∀ {k K}, FloatKernel k K → FloatWeights n newN N k := by
    intro k K hk rate e x hx
    obtain ⟨rate', e', hall⟩ := program_direction hk hn ⟨hN.1, hN29⟩ h1 h2 h3
    obtain rfl : rate' = rate := Option.some.inj (e'.symm.trans e)
    obtain ⟨p, ep, G, -⟩ := hall x hx
    exact ⟨p, ep, G⟩
  intro e he
  simp only [benchmarkTable, List.mem_cons, List.not_mem_nil, or_false] at he
  rcases he with rfl | rfl | rfl | rfl | rfl
  · intro rate e x hx
    obtain ⟨rate', e', hall⟩ := box_direction (N := N) ⟨hn.1, hn18⟩ hN (by linarith) (h2.trans (by norm_num))
    obtain rfl : rate' = rate := Option.some.inj (e'.symm.trans e)
    obtain ⟨p, S, ep, G, -⟩ := hall x hx
    exact ⟨p, ep, G⟩
  · exact poly .linear
  · exact poly .quadratic
  · exact poly .cubic
  · exact hl

/-- Zero times a finite weight is zero, in binary32. -/
theorem zero_times_weight {n newN : Int} {N : Nat} {k : Option ℚ → Option ℚ} (hk : FloatWeights n newN N k) {rate : Rational}
    (e : Rational.mk2 (BitVec.ofInt 64 newN) (BitVec.ofInt 64 n) = some rate) {x : Int} {p : Rational} {d : Dense1 (Option ℚ)}
    (hx : InInterval ⟨0, newN⟩ x) (ep : kernelPosition x rate = some p) (hd : GoodKernel float32 ⟨0, n⟩ (weight float32 k rate p) d)
    (i : Int) (hi : InInterval d.dom i) : float32.add float32.zero (float32.mul float32.zero (d.data i)) = float32.zero := by
  obtain ⟨p', ep', G⟩ := hk rate e x hx
  obtain rfl : p' = p := Option.some.inj (ep'.symm.trans ep)
  obtain ⟨hin, -, -, -, -, s, hs, hdata⟩ := hd
  have := (G.tap C84_float hs (hin i hi)).1
  rw [← hdata i hi] at this
  obtain ⟨q, hq⟩ : ∃ q, d.data i = some q := by
    cases h : d.data i with
    | none => rw [h] at this; obtain ⟨_, _, _, _, hq, _⟩ := this; cases hq
    | some q => exact ⟨q, rfl⟩
  rw [hq]
  have z : finiteOr largestFloat (nearestBinary roundEven 24 (-149) 0) = some 0 := by
    simpa [float32, binaryFloatOps] using (integer_float (v := 0) le_rfl (by norm_num)).1
  have e1 : float32.mul float32.zero (some q) = some 0 := by
    show finiteOr largestFloat (nearestBinary roundEven 24 (-149) (0 * q)) = some 0
    rw [zero_mul, z]
  rw [e1]
  show finiteOr largestFloat (nearestBinary roundEven 24 (-149) (0 + 0)) = some 0
  rw [add_zero, z]

/-- C100: the program in binary32, with any kernel in the place of the Lanczos kernel whose weights are good. -/
theorem C100_float (w h newW newH : Int) (hw : 1 ≤ w ∧ w < 2 ^ 29) (hh : 1 ≤ h ∧ h < 2 ^ 29) (hW : 1 ≤ newW ∧ newW ≤ 2 ^ 21)
    (hH : 64 ≤ newH ∧ newH ≤ 2 ^ 21) (NX NY : Nat)
    (x1 : 9 / 2 ≤ NX * min ((newW : ℚ) / w) 1) (x2 : NX ≤ 500) (x3 : NX * (2 * w + 8) ≤ 100000)
    (y1 : 9 / 2 ≤ NY * min ((newH : ℚ) / h) 1) (y2 : NY ≤ 500) (y3 : NY * (2 * h + 8) ≤ 100000)
    (lanczos3 : Option ℚ → Option ℚ) (lx : FloatWeights w newW NX lanczos3) (ly : FloatWeights h newH NY lanczos3)
    (more : List Int) (clock : Nat → Nat → Int) (hc : ∀ j, j < 5 → Measured (clock j)) (debug : Bool) (m : Mem (Option ℚ)) :
    ∃ rows, resampleBenchmarkMain float32Kernel ieeeDouble debug (benchmarkTable float32Kernel lanczos3)
        (w :: h :: newW :: newH :: more) 0 (4 * (w * h)) (placedCalls w h newW newH) clock m = some (0, rows) ∧
      rows.map Prod.fst = ["box", "linear", "quadratic", "cubic", "lanczos3"] ∧
      ∀ j r, rows[j]? = some r → TimePrinted (clock j) r.2 := by
  have big : ∀ n : Int, n ≤ 2 ^ 21 → n < 2 ^ 29 := fun n hn => lt_of_le_of_lt hn (by norm_num)
  have hi := image_size hw hh
  have ho := image_size (w := newW) (h := newH) ⟨hW.1, big _ hW.2⟩ ⟨by omega, big _ hH.2⟩
  have fit : ∀ n : Int, n < 2 ^ 29 → 64 * n * 4 ≤ 9223372036854775807 := by
    intro n hn
    norm_num at hn
    omega
  have wx := float_table_weights hw hW x1 x2 x3 lx
  have wy := float_table_weights hh ⟨by omega, hH.2⟩ y1 y2 y3 ly
  have b29 : ∀ n : Int, n < 2 ^ 29 → n < 536870912 := fun n h => by norm_num at h; exact h
  obtain ⟨rateX, ex, -⟩ := rate_make (n := newW) (d := w) hW.1 (by have := b29 _ (big _ hW.2); omega) hw.1
    (by have := b29 _ hw.2; omega)
  obtain ⟨rateY, ey, -⟩ := rate_make (n := newH) (d := h) (by omega) (by have := b29 _ (big _ hH.2); omega) hh.1
    (by have := b29 _ hh.2; omega)
  have cover : ∀ {n newN : Int} {rate : Rational} {N : Nat} {k : Option ℚ → Option ℚ},
      Rational.mk2 (BitVec.ofInt 64 newN) (BitVec.ofInt 64 n) = some rate → FloatWeights n newN N k →
      ∀ x, InInterval ⟨0, newN⟩ x → ∃ p, kernelPosition x rate = some p ∧
        ∃ i, InInterval ⟨0, n⟩ i ∧ float32.nonZero (weight float32 k rate p i) = true := by
    intro n newN rate N k e hk x hx
    obtain ⟨p, hp, G⟩ := hk rate e x hx
    obtain ⟨i, hi, hw⟩ := Finset.exists_ne_zero_of_sum_ne_zero G.sum
    have hi' : InInterval ⟨0, n⟩ i := Finset.mem_Ico.1 hi
    exact ⟨p, hp, i, hi', (C84_float.nonZero _ (G.finite i hi')).2 hw⟩
  obtain ⟨rows, m', e, h1, h2, -⟩ := C100_run (o := float32Kernel) w h newW newH hi ho hH.1 (fit w hw.2) (fit newW (big _ hW.2))
    (benchmarkTable float32Kernel lanczos3) 0 (4 * (w * h)) (.inl (by omega)) (placedCalls w h newW newH) rateX rateY
    ex ey (fun e he => cover ex (wx e he)) (fun e he => cover ey (wy e he))
    (fun e he n kx ky ekx eky => C85_placement w h newW newH hi ho e.2 rateX rateY _ _ _ _ rfl rfl rfl rfl (cover ex (wx e he))
      (cover ey (wy e he)) kx ky ekx eky)
    (fun e he x p k hx hp hk i hi => zero_times_weight (wx e he) ex hx hp hk i hi)
    (fun e he x p k hx hp hk i hi => zero_times_weight (wy e he) ey hx hp hk i hi) clock hc debug m
  refine ⟨rows, ?_, h1, h2⟩
  unfold resampleBenchmarkMain
  dsimp only
  rw [e]
  rfl

/-- C100: with fewer than four arguments the program prints how it is used and returns -1. -/
theorem C100_usage {F : Type} (o : KernelOps F) (debug : Bool) (table : List (String × (F → F))) (args : List Int)
    (hargs : args.length < 4) (bi bo : Int) (at_ : CallAddresses) (clock : Nat → Nat → Int) (m : Mem F) :
    resampleBenchmarkMain o ieeeDouble debug table args bi bo at_ clock m = some (-1, []) := by
  match args, hargs with
  | [], _ => rfl
  | [_], _ => rfl
  | [_, _], _ => rfl
  | [_, _, _], _ => rfl
  | _ :: _ :: _ :: _ :: _, h => simp at h; omega

/-- C100, negative part: arguments that are not numbers, which `std::atoi` makes 0, divide zero by zero. -/
theorem C100_zero_counterexample {F : Type} (o : KernelOps F) (debug : Bool) (table : List (String × (F → F))) (h newH : Int)
    (more : List Int) (bi bo : Int) (at_ : CallAddresses) (clock : Nat → Nat → Int) (m : Mem F) :
    resampleBenchmarkMain o ieeeDouble debug table (0 :: h :: 0 :: newH :: more) bi bo at_ clock m = none := by
  have ext : ∀ h b : Int, (planarImage 0 h 4 b).x.val.extent = 0 := fun h b => rfl
  have hz : Rational.mk2 (0#64) (0#64) = none := by
    unfold Rational.mk2 Rational.reduce
    rw [gcdT]
    simp [cdiv]
  unfold resampleBenchmarkMain runBenchmarks
  simp [ext, hz]

/-- C100, negative part: an output of less than 64 rows makes the program fail in its first call of `resample`. -/
theorem C100_small_counterexample {F : Type} (o : KernelOps F) (debug : Bool) (e : String × (F → F)) (rest : List (String × (F → F)))
    (w h newW newH : Int) (ho : ImageSize newW newH 4) (hH : newH < 64) (more : List Int) (bi bo : Int) (at_ : CallAddresses)
    (clock : Nat → Nat → Int) (m : Mem F) :
    resampleBenchmarkMain o ieeeDouble debug (e :: rest) (w :: h :: newW :: newH :: more) bi bo at_ clock m = none := by
  unfold resampleBenchmarkMain runBenchmarks
  dsimp only
  rw [planarImage_eq ho]
  have hs : ∀ a r s ax ay buf m, resample o.toFloatOps debug a (planarOf newW newH 4 bo) r s e.2 ax ay buf m = none :=
    fun a r s ax ay buf m =>
      C51_small_counterexample o.toFloatOps debug a _ r s e.2 ax ay buf m (by show 0 < newH; have := ho.height; omega) hH
  have hcall : ∀ a r s st, resampleCall o debug a (planarOf newW newH 4 bo) r s at_ e.2 st = none := fun a r s st => by
    unfold resampleCall
    rw [hs]
    rfl
  have hrow : ∀ a r s st, benchmarkRows ieeeDouble (resampleCall o debug a (planarOf newW newH 4 bo) r s at_) (e :: rest) clock st =
      none := fun a r s st => by
    unfold benchmarkRows benchmark benchmarkLoop benchmarkTrial
    simp [repeatOp, hcall]
  simp only [Option.bind_eq_bind, hrow]
  simp

/-! ### Concrete cases -/

/-- A clock: the trial that is numbered `t` takes `10^t` microseconds. -/
def slowClock (t : Nat) : Int := 1000 * 10 ^ t

example : Measured slowClock := by
  intro k hk
  interval_cases k <;> norm_num [slowClock]

/-- The usage and the zero. -/
example (m : Mem ℝ) : resampleBenchmarkMain (fieldKernelOps ℝ) ieeeDouble true (benchmarkTable (fieldKernelOps ℝ) fun s => lanczos s 3)
    [256, 256, 128] 0 262144 (placedCalls 256 256 128 128) (fun _ => slowClock) m = some (-1, []) :=
  C100_usage _ _ _ _ (by decide) _ _ _ _ _

/-- Half the size, in exact arithmetic, with the five kernels. -/
example (m : Mem ℝ) : ∃ rows, resampleBenchmarkMain (fieldKernelOps ℝ) ieeeDouble true
      (benchmarkTable (fieldKernelOps ℝ) fun s => lanczos s 3) [256, 256, 128, 128] 0 (4 * (256 * 256))
      (placedCalls 256 256 128 128) (fun _ => slowClock) m = some (0, rows) ∧ rows.length = 5 := by
  obtain ⟨rows, e, h, -⟩ := C100_exact 256 256 128 128 (by norm_num) (by norm_num) (by norm_num) (by norm_num) [] (fun _ => slowClock)
    (fun _ _ k hk => by interval_cases k <;> norm_num [slowClock]) true m
  exact ⟨rows, e, by simpa using congrArg List.length h⟩

/-- The same in binary32, with the cubic kernel in the place of the Lanczos kernel. -/
example (m : Mem (Option ℚ)) : ∃ rows, resampleBenchmarkMain float32Kernel ieeeDouble true
      (benchmarkTable float32Kernel (interpolatingCubicOp float32Kernel)) [256, 256, 128, 128] 0 (4 * (256 * 256))
      (placedCalls 256 256 128 128) (fun _ => slowClock) m = some (0, rows) ∧ rows.length = 5 := by
  have hl : FloatWeights 256 128 9 (interpolatingCubicOp float32Kernel) := by
    intro rate e x hx
    obtain ⟨rate', e', hall⟩ := program_direction .cubic (n := 256) (newN := 128) (by norm_num) (by norm_num) (N := 9) (by norm_num)
      (by norm_num) (by norm_num)
    obtain rfl : rate' = rate := Option.some.inj (e'.symm.trans e)
    obtain ⟨p, ep, G, -⟩ := hall x hx
    exact ⟨p, ep, G⟩
  obtain ⟨rows, e, h, -⟩ := C100_float 256 256 128 128 (by norm_num) (by norm_num) (by norm_num) (by norm_num) 9 9 (by norm_num)
    (by norm_num) (by norm_num) (by norm_num) (by norm_num) (by norm_num) _ hl hl [] (fun _ => slowClock)
    (fun _ _ k hk => by interval_cases k <;> norm_num [slowClock]) true m
  exact ⟨rows, e, by simpa using congrArg List.length h⟩

/-- A row of the output: a trial of 20 calls that took 2 s prints 100 ms. -/
example : (ieeeDouble.mul (timePerIteration ieeeDouble 2000000000 20) (ieeeDouble.lit 1000)) = ieeeDouble.lit 100 := by
  decide +kernel

end Nda
