import Verif.Model.ResampleBenchmark
import Verif.Spec.ResampleBenchmark
import Verif.Props.ResampleProgram
import Verif.Props.ExamplePrograms
/-
Lemmas for the program that measures `resample` (C100).
-/
namespace Nda
open Spec

section
variable {F : Type} {o : KernelOps F}

theorem planar_component (w h b x y c : Int) : pixelAddress (planarOf w h 4 b) b x y c = b + (c * h + y) * w + x := by
  unfold pixelAddress planarOf
  dsimp only
  ring

/-- The milliseconds. -/
theorem time_printed {clock : Nat → Int} (hc : Measured clock) {n : Nat} {t : Ieee} {k : Nat} {it : Int}
    (hT : Trials clock 1 n t k it) (hn : (n : Int) ≤ 1111111111) : TimePrinted clock (ieeeDouble.mul t (ieeeDouble.lit 1000)) := by
  have R := ieeeDouble_rounds
  have hl : ieeeDouble.lit 1000 = .num 1000 := by decide +kernel
  have hf : IsDouble (.num 1000) := ⟨1000, 0, by norm_num, by norm_num, by rw [zpow_zero, mul_one]; rfl, by
    rw [zpow_zero, mul_one]
    exact le_trans (by norm_num) largestDouble_ge⟩
  rw [hl]
  obtain ⟨ht, he⟩ := hT.time
  obtain ⟨c0, c1⟩ := hc k hT.trial
  have i1 : (1 : ℚ) ≤ it := by exact_mod_cast hT.least.1
  have i2 : (it : ℚ) ≤ 1111111111 := by exact_mod_cast hT.least.2.trans hn
  set q : ℚ := clock k / (it * 1000000000) with hq
  have c1q : |(clock k : ℚ)| ≤ 9223372036854775807 := by exact_mod_cast c1
  have c0q : (1 : ℚ) ≤ |(clock k : ℚ)| := by exact_mod_cast Int.one_le_abs c0
  have hqa : |q| = |(clock k : ℚ)| / (it * 1000000000) := by
    rw [hq, abs_div, abs_of_pos (by positivity : (0 : ℚ) < it * 1000000000)]
  have q1 : |q| ≤ 9223372036854775807 := by
    rw [hqa, div_le_iff₀ (by positivity)]
    nlinarith
  have q0 : 1 / 1111111111000000000 ≤ |q| := by
    rw [hqa, div_le_div_iff₀ (by norm_num) (by positivity)]
    nlinarith
  have hv : |t.value| ≤ 2 * |q| := by
    have := abs_add_le (t.value - q) q
    rw [sub_add_cancel] at this
    have e : 7 * (2 : ℚ)⁻¹ ^ 53 * |q| ≤ 1 * |q| := mul_le_mul_of_nonneg_right (by norm_num) (abs_nonneg _)
    linarith
  have e1000 : (Ieee.num 1000).value = 1000 := rfl
  obtain ⟨m1, m2⟩ := R.mul t (.num 1000) ht hf (by
    rw [e1000, abs_mul, abs_of_pos (by norm_num : (0 : ℚ) < 1000)]
    refine le_trans ?_ largestDouble_ge
    norm_num
    linarith)
  rw [e1000] at m2
  have e6 : (clock k : ℚ) / (it * 1000000) = q * 1000 := by rw [hq]; field_simp; norm_num
  refine ⟨k, it, hT.trial, hT.least.1, hT.least.2.trans hn, hT.last, ⟨_, Ieee.of_finite m1⟩, ?_⟩
  rw [e6, abs_mul, abs_of_pos (by norm_num : (0 : ℚ) < 1000)]
  have hη : (2 : ℚ) ^ (-1075 : Int) ≤ (2 : ℚ)⁻¹ ^ 53 * (1 / 2 ^ 70) := by
    have : (2 : ℚ)⁻¹ ^ 53 * (1 / 2 ^ 70) = (2 : ℚ) ^ (-123 : Int) := by norm_num
    rw [this]
    exact zpow_le_zpow_right₀ (by norm_num) (by norm_num)
  have h70 : (1 : ℚ) / 2 ^ 70 ≤ |q| := le_trans (by norm_num) q0
  have tri := abs_add_le ((ieeeDouble.mul t (.num 1000)).value - t.value * 1000) (t.value * 1000 - q * 1000)
  rw [sub_add_sub_cancel, ← sub_mul, abs_mul (t.value - q), abs_of_pos (by norm_num : (0 : ℚ) < 1000)] at tri
  have hm : |t.value * 1000| ≤ (1 + 7 * (2 : ℚ)⁻¹ ^ 53) * |q| * 1000 := by
    rw [abs_mul, abs_of_pos (by norm_num : (0 : ℚ) < 1000)]
    have := abs_add_le (t.value - q) q
    rw [sub_add_cancel] at this
    linarith
  set u : ℚ := (2 : ℚ)⁻¹ ^ 53 with hu
  have hu0 : 0 < u := by positivity
  have hu1 : u ≤ 1 / 1000000 := by rw [hu]; norm_num
  have a1 : u * |t.value * 1000| ≤ u * ((1 + 7 * u) * |q| * 1000) := mul_le_mul_of_nonneg_left hm hu0.le
  have a2 : u * (1 / 2 ^ 70) ≤ u * |q| := mul_le_mul_of_nonneg_left h70 hu0.le
  have a3 : u * (u * |q|) ≤ 1 / 1000000 * (u * |q|) := mul_le_mul_of_nonneg_right hu1 (by positivity)
  have a4 : 0 ≤ u * |q| := by positivity
  have a5 : u * ((1 + 7 * u) * |q| * 1000) = 1000 * (u * |q|) + 7000 * (u * (u * |q|)) := by ring
  have a6 : 7 * u * |q| = 7 * (u * |q|) := by ring
  have a7 : 9 * u * (|q| * 1000) = 9000 * (u * |q|) := by ring
  rw [a5] at a1
  rw [a6] at he
  rw [a7]
  generalize (2 : ℚ) ^ (-1075 : Int) = η at m2 hη
  generalize |(ieeeDouble.mul t (.num 1000)).value - t.value * 1000| = e1 at tri m2
  generalize |t.value - q| = e2 at tri he
  generalize u * |t.value * 1000| = e3 at a1 m2
  generalize u * (u * |q|) = e4 at a1 a3
  generalize u * |q| = e5 at *
  have b1 : η ≤ e5 := hη.trans a2
  linarith only [tri, m2, he, a1, a3, a4, b1]

/-- Repeated calls that keep an invariant. -/
theorem repeat_calls {op : Nat × Mem F → Option (Nat × Mem F)} {Inv : Mem F → Prop}
    (hop : ∀ n m, Inv m → ∃ m', op (n, m) = some (n + 1, m') ∧ Inv m') :
    ∀ (j n : Nat) (m : Mem F), Inv m → ∃ m', repeatOp op j (n, m) = some (n + j, m') ∧ Inv m'
  | 0, n, m, h => ⟨m, rfl, h⟩
  | j + 1, n, m, h => by
    obtain ⟨m1, e1, h1⟩ := hop n m h
    obtain ⟨m2, e2, h2⟩ := repeat_calls hop j (n + 1) m1 h1
    refine ⟨m2, ?_, h2⟩
    show (op (n, m)).bind (repeatOp op j) = _
    rw [e1, Option.bind_some, e2]
    congr 2
    omega

theorem rows_run {op : (F → F) → Nat × Mem F → Option (Nat × Mem F)} {Inv : Mem F → Prop} :
    ∀ (table : List (String × (F → F))) (clock : Nat → Nat → Int) (n : Nat) (m : Mem F),
      (∀ e ∈ table, ∀ n m, Inv m → ∃ m', op e.2 (n, m) = some (n + 1, m') ∧ Inv m') →
      (∀ j, j < table.length → Measured (clock j)) → Inv m →
      ∃ rows n' m', benchmarkRows ieeeDouble op table clock (n, m) = some (rows, (n', m')) ∧ Inv m' ∧
        n + table.length ≤ n' ∧ n' ≤ n + 1111111111 * table.length ∧
        rows.map Prod.fst = table.map Prod.fst ∧ ∀ j r, rows[j]? = some r → TimePrinted (clock j) r.2
  | [], clock, n, m, _, _, h => ⟨[], n, m, rfl, h, by simp, by simp, rfl, by simp⟩
  | e :: rest, clock, n, m, hop, hc, h => by
    have hc0 := hc 0 (by simp)
    obtain ⟨j, t, k, it, hT, hn, hrun⟩ :=
      benchmark_trials hc0 10 0 1 (ieeeDouble.lit 0) (by omega) rfl le_rfl (by norm_num)
    have hj : (j : Int) ≤ 1111111111 := by norm_num at hn; omega
    have hj1 := hT.least
    obtain ⟨m1, e1, h1⟩ := repeat_calls (hop e (by simp)) j n m h
    obtain ⟨rows, n', m', e2, h2, l1, l2, hr, ht⟩ := rows_run rest (fun j => clock (j + 1)) (n + j) m1
      (fun e he => hop e (by simp [he])) (fun j hj => hc (j + 1) (by simpa using hj)) h1
    refine ⟨(e.1, ieeeDouble.mul t (ieeeDouble.lit 1000)) :: rows, n', m', ?_, h2, ?_, ?_, by simp [hr], ?_⟩
    · unfold benchmarkRows benchmark
      rw [hrun, e1]
      show ((benchmarkRows ieeeDouble op rest (fun j => clock (j + 1)) (n + j, m1)).bind fun r =>
        some ((e.1, ieeeDouble.mul t (ieeeDouble.lit 1000)) :: r.1, r.2)) = _
      rw [e2]
      rfl
    · rw [List.length_cons]
      omega
    · rw [List.length_cons]
      omega
    · intro i r hi
      cases i with
      | zero =>
        simp only [List.getElem?_cons_zero, Option.some.injEq] at hi
        rw [← hi]
        exact time_printed hc0 hT hj
      | succ i => exact ht i r (by simpa using hi)

theorem kernelSum_zero {o : FloatOps F} {k : Dense1 F} (h : ∀ i, InInterval k.dom i → o.add o.zero (o.mul o.zero (k.data i)) = o.zero)
    {f : Int → F} (hf : ∀ i, InInterval k.dom i → f i = o.zero) : kernelSum o k f = o.zero := by
  unfold kernelSum
  have hl : ∀ i ∈ (List.range k.dom.extent.toNat).map fun j : Nat => k.dom.min + (j : Int), InInterval k.dom i := by
    intro i hi
    obtain ⟨j, hj, rfl⟩ := List.mem_map.1 hi
    have := List.mem_range.1 hj
    exact ⟨by omega, by omega⟩
  generalize (List.range k.dom.extent.toNat).map (fun j : Nat => k.dom.min + (j : Int)) = l at hl
  induction l with
  | nil => rfl
  | cons a l ih =>
    have ha := hl a (by simp)
    rw [List.foldl_cons, hf a ha, h a ha]
    exact ih fun i hi => hl i (by simp [hi])

/-- One call with an input of zeros. -/
theorem call_zero (w h newW newH : Int) (hi : ImageSize w h 4) (ho : ImageSize newW newH 4) (h64 : 64 ≤ newH)
    (hfit1 : 64 * w * 4 ≤ 9223372036854775807) (hfit2 : 64 * newW * 4 ≤ 9223372036854775807) (kernel : F → F)
    (bi bo : Int) (at_ : CallAddresses) (rateX rateY : Rational)
    (hkx : KernelsCover o.toFloatOps (planarOf w h 4 bi).x (planarOf newW newH 4 bo).x rateX kernel)
    (hky : KernelsCover o.toFloatOps (planarOf w h 4 bi).y (planarOf newW newH 4 bo).y rateY kernel)
    (hsep : ∀ n kx ky, buildKernels o.toFloatOps ⟨0, w⟩ ⟨0, newW⟩ rateX kernel = some kx →
      buildKernels o.toFloatOps ⟨0, h⟩ ⟨0, newH⟩ rateY kernel = some ky →
      SeparateObjects (planarOf w h 4 bi) (planarOf newW newH 4 bo) bi bo kx ky (at_.ax n) (at_.ay n) (at_.buf n))
    (hzx : ∀ x p k, InInterval ⟨0, newW⟩ x → kernelPosition x rateX = some p →
      GoodKernel o.toFloatOps ⟨0, w⟩ (weight o.toFloatOps kernel rateX p) k →
      ∀ i, InInterval k.dom i → o.add o.zero (o.mul o.zero (k.data i)) = o.zero)
    (hzy : ∀ x p k, InInterval ⟨0, newH⟩ x → kernelPosition x rateY = some p →
      GoodKernel o.toFloatOps ⟨0, h⟩ (weight o.toFloatOps kernel rateY p) k →
      ∀ i, InInterval k.dom i → o.add o.zero (o.mul o.zero (k.data i)) = o.zero)
    (debug : Bool) (n : Nat) (m : Mem F) (hm : AllComponents o.zero w h bi m) :
    ∃ m', resampleCall o debug (planarOf w h 4 bi) (planarOf newW newH 4 bo) rateX rateY at_ kernel (n, m) = some (n + 1, m') ∧
      AllComponents o.zero w h bi m' ∧ AllComponents o.zero newW newH bo m' := by
  set A := planarOf w h 4 bi with hA
  set B := planarOf newW newH 4 bo with hB
  have dyn : ∀ v : Int, Describes (-9) v := fun v h => absurd rfl h
  have properA : ProperDim A.x ∧ ProperDim A.y ∧ ProperDim A.c :=
    ⟨⟨⟨dyn _, dyn _, fun _ => rfl⟩, by show 0 < w; have := hi.width; omega⟩,
      ⟨⟨dyn _, dyn _, dyn _⟩, by show 0 < h; have := hi.height; omega⟩, ⟨dyn _, dyn _, dyn _⟩, by show (0 : Int) < 4; omega⟩
  have properB : ProperDim B.x ∧ ProperDim B.y ∧ ProperDim B.c :=
    ⟨⟨⟨dyn _, dyn _, fun _ => rfl⟩, by show 0 < newW; have := ho.width; omega⟩,
      ⟨⟨dyn _, dyn _, dyn _⟩, by show 0 < newH; omega⟩, ⟨dyn _, dyn _, dyn _⟩, by show (0 : Int) < 4; omega⟩
  obtain ⟨kx, ky, gx, gy, sep, hres⟩ := C51_resample o.toFloatOps A B bi bo rateX rateY kernel (at_.ax n) (at_.ay n) (at_.buf n) m
    rfl rfl properA properB h64 (fun c h => h) hfit1 hfit2 hkx hky (hsep n)
  obtain ⟨m', e, val, frame⟩ := hres debug
  have inA : ∀ x y c, IsComponent w h x y c → inRangeOf A.x x ∧ inRangeOf A.y y ∧ inRangeOf A.c c := fun x y c hc =>
    ⟨by show 0 ≤ x ∧ x < 0 + w; rw [zero_add]; exact hc.1, by show 0 ≤ y ∧ y < 0 + h; rw [zero_add]; exact hc.2.1,
      by show 0 ≤ c ∧ c < 0 + 4; rw [zero_add]; exact hc.2.2⟩
  have inB : ∀ x y c, IsComponent newW newH x y c → inRangeOf B.x x ∧ inRangeOf B.y y ∧ inRangeOf B.c c := fun x y c hc =>
    ⟨by show 0 ≤ x ∧ x < 0 + newW; rw [zero_add]; exact hc.1, by show 0 ≤ y ∧ y < 0 + newH; rw [zero_add]; exact hc.2.1,
      by show 0 ≤ c ∧ c < 0 + 4; rw [zero_add]; exact hc.2.2⟩
  refine ⟨m', ?_, ?_, ?_⟩
  · unfold resampleCall
    rw [e]
    rfl
  · intro x y c hc
    obtain ⟨a1, a2, a3⟩ := inA x y c hc
    have hp : PixelOf A bi (pixelAddress A bi x y c) := ⟨x, y, c, a1, a2, a3, rfl⟩
    rw [← planar_component, frame _ (sep.in_out _ hp) (sep.in_k _ hp).1 (sep.in_k _ hp).2
      (fun yo n hn ht => (sep.temp yo n _ hn ht).1 hp), hA, planar_component]
    exact hm x y c hc
  · intro x y c hc
    obtain ⟨b1, b2, b3⟩ := inB x y c hc
    rw [← planar_component, val x y c b1 b2 b3]
    obtain ⟨px, hpx, -⟩ := hkx x b1
    obtain ⟨py, hpy, -⟩ := hky y b2
    have g1 := gx x px b1 hpx
    have g2 := gy y py b2 hpy
    refine kernelSum_zero (hzx x px _ b1 hpx g1) fun i hi => kernelSum_zero (hzy y py _ b2 hpy g2) fun j hj => ?_
    have i1 := g1.1 i hi
    have j1 := g2.1 j hj
    rw [hA, planar_component]
    refine hm i j c ⟨?_, ?_, hc.2.2⟩
    · have : 0 ≤ i ∧ i < 0 + w := i1
      rwa [zero_add] at this
    · have : 0 ≤ j ∧ j < 0 + h := j1
      rwa [zero_add] at this

end

end Nda
