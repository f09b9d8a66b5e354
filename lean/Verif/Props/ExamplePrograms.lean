import Verif.Lemmas.ConvolutionProgram
/-
C93: the programs of examples/linear_algebra/matrix.cpp and examples/linear_algebra/conv2d_relu.cpp, and `benchmark`.
-/
namespace Nda
open Spec

/-- C93: `benchmark` calls its function at least once and a bounded number of times, whatever the clock shows except
zero nanoseconds, and returns the time per call of its last trial, which took a second or was the tenth. -/
theorem C93_benchmark {clock : Nat → Int} (hc : Measured clock) :
    ∃ (n k : Nat) (iterations : Int) (t : Ieee), 1 ≤ iterations ∧ iterations ≤ n ∧ n ≤ 1111111111 ∧
      k < 10 ∧ (k = 9 ∨ 999999999 < clock k) ∧ (∃ x, t = .num x) ∧
      |t.value - clock k / (iterations * 1000000000)| ≤
        7 * (2 : ℚ)⁻¹ ^ 53 * |(clock k / (iterations * 1000000000) : ℚ)| ∧
      ∀ {σ : Type} (op : σ → Option σ) (s : σ),
        benchmark ieeeDouble op clock s = (repeatOp op n s).map fun s => (t, s) := by
  obtain ⟨n, t, k, it, hT, hn, hrun⟩ :=
    benchmark_trials hc 10 0 1 (ieeeDouble.lit 0) (by omega) rfl le_rfl (by norm_num)
  refine ⟨n, k, it, t, hT.least.1, hT.least.2, by norm_num at hn; omega, hT.trial, hT.last,
    ⟨_, Ieee.of_finite hT.time.1⟩, hT.time.2, hrun⟩

/-- C93, counterexample: if the clock does not advance during a trial, 2 / 0 seconds are converted to `long`. -/
theorem C93_benchmark_counterexample {σ : Type} (op : σ → Option σ) (s : σ) (clock : Nat → Int) (h : clock 0 = 0) :
    benchmark ieeeDouble op clock s = none := by
  unfold benchmark benchmarkLoop
  rw [h]
  have h1 : timePerIteration ieeeDouble 0 1 = .num 0 := by decide +kernel
  have h2 : ieeeDouble.lt (ieeeDouble.lit 1) (ieeeDouble.mul (.num 0) (ieeeDouble.ofIndex 1)) = false := by decide +kernel
  have h3 : nextIterations ieeeDouble (.num 0) 1 = none := by decide +kernel
  rw [h1]
  dsimp only
  rw [h2, h3]
  cases benchmarkTrial op 1 s <;> rfl

/-- C93: what `relative_error(a, b) > tolerance` decides for finite numbers that are not negative. -/
theorem C93_check {τ : ℚ} (h0 : 1 / 1000000 ≤ τ) (h1 : τ ≤ 1) {x z : Ieee} (hx : IsFloat x.finite)
    (hz : IsFloat z.finite) (hx0 : 0 ≤ x.value) (hz0 : 0 ≤ z.value) :
    (exceeds ieeeFloat τ x z = true → (1 - 1 / 1000000) * τ * max x.value z.value < |x.value - z.value|) ∧
    (exceeds ieeeFloat τ x z = false → |x.value - z.value| ≤ (1 + 1 / 1000000) * τ * max x.value z.value) :=
  exceeds_near h0 h1 hx hz hx0 hz0

/-- C93, counterexamples: no difference is seen if either result is NaN, if either is infinity, or if both are
negative. -/
theorem C93_blind_counterexample {τ : ℚ} (h0 : 1 / 1000000 ≤ τ) (h1 : τ ≤ 1) (x z : Ieee)
    (h : (x = .nan ∨ z = .nan) ∨ (x = .inf false ∨ z = .inf false) ∨
      ieeeFloat.lt x (.num 0) = true ∧ ieeeFloat.lt z (.num 0) = true) : exceeds ieeeFloat τ x z = false :=
  exceeds_blind h0 h1 x z h

/-- C93: the matrix program, for any sizes that the tiles divide and up to 1536 terms: the versions run without
failed assertions and accesses out of bounds, and none of them is reported, whatever the random numbers of [0, 1] and
the times are. -/
theorem C93_matrix_sizes {run : MatrixRun} {M K N : Int} (hmem : MatrixMemory run M K N) (hM : 1 ≤ M) (hK : 1 ≤ K)
    (hK' : K ≤ 1536) (hN : 1 ≤ N) (h4 : 4 ∣ M) (h24 : 24 ∣ N) (hMN : M * N ≤ 9223372036854775807)
    (hMK : M * K ≤ 9223372036854775807) (hKN : K * N ≤ 9223372036854775807) (debug : Bool)
    (hclock : ∀ t, Measured (run.clock t)) (random : Nat → Ieee) (hrandom : ∀ n, UnitFloat (random n)) (m : Mem Ieee) :
    ∃ m', matrixProgramOf ieeeFloat ieeeDouble M K N debug random run m = some (0, m') :=
  matrixProgramOf_spec hmem hM hK hK' hN h4 h24 hMN hMK hKN debug hclock random hrandom m

/-- C93: the matrix program returns 0. -/
theorem C93_matrix {run : MatrixRun} (hmem : MatrixMemory run 384 1536 384) (debug : Bool)
    (hclock : ∀ t, Measured (run.clock t)) (random : Nat → Ieee) (hrandom : ∀ n, UnitFloat (random n)) (m : Mem Ieee) :
    ∃ m', matrixProgram ieeeFloat ieeeDouble debug random run m = some (0, m') :=
  C93_matrix_sizes hmem (by norm_num) (by norm_num) (by norm_num) (by norm_num) (by norm_num) (by norm_num) (by norm_num)
    (by norm_num) (by norm_num) debug hclock random hrandom m

/-- C93: the convolution program, for any sizes that are not below those of the tiles: both versions run without
failed assertions and accesses out of bounds, and no element is reported, for all values, NaN and infinities
included. -/
theorem C93_convolution_sizes {run : ConvolutionRun} {N CI CO W H : Int} (hmem : ConvolutionMemory run N CI CO W H)
    (hN : 0 ≤ N) (hCI : 0 ≤ CI) (hCO : 24 ≤ CO) (hW : 4 ≤ W) (hH : 0 ≤ H) (debug : Bool)
    (hc1 : Measured run.naiveClock) (hc2 : Measured run.tiledClock) (random : Nat → Ieee) (m : Mem Ieee) :
    ∃ m', convolutionProgramOf ieeeFloat ieeeDouble N CI CO W H debug random run m = some ([], m') :=
  convolutionProgramOf_spec hmem hN hCI hCO hW hH debug hc1 hc2 random m

/-- C93: the convolution program reports nothing. -/
theorem C93_convolution {run : ConvolutionRun} (hmem : ConvolutionMemory run 5 128 128 100 80) (debug : Bool)
    (hc1 : Measured run.naiveClock) (hc2 : Measured run.tiledClock) (random : Nat → Ieee) (m : Mem Ieee) :
    ∃ m', convolutionProgram ieeeFloat ieeeDouble debug random run m = some ([], m') :=
  C93_convolution_sizes hmem (by norm_num) (by norm_num) (by norm_num) (by norm_num) (by norm_num) debug hc1 hc2 random m

/-- A call of 0.3 s: 1 call, then ⌈2 / 0.3⌉ = 7, which take 2.1 s. -/
example : (benchmark ieeeDouble (fun s : Nat => some (s + 1)) (fun t => if t = 0 then 300000000 else 2100000000) 0).map
    (·.2) = some 8 := by decide +kernel
/-- A call that the clock shows as a nanosecond: ten times as many calls in each trial; here up to the fourth, which
is shown as two seconds. -/
example : (benchmark ieeeDouble (fun s : Nat => some (s + 1)) (fun t => if t < 3 then 1 else 2000000000) 0).map
    (·.2) = some 1111 := by decide +kernel
/-- A clock that is set back during a trial: the same number of calls is tried again. -/
example : (benchmark ieeeDouble (fun s : Nat => some (s + 1)) (fun t => if t = 0 then -500 else 2000000000) 0).map
    (·.2) = some 2 := by decide +kernel

/-- The tolerance of the matrix program. -/
example : exceeds ieeeFloat (1 / 10000) (.num 384) (.num (384 + 1 / 32)) = false := by decide +kernel
example : exceeds ieeeFloat (1 / 10000) (.num 384) (.num (384 + 1 / 16)) = true := by decide +kernel
/-- A wrong result that is not seen: the result of one version is infinity, or has the wrong magnitude but both are
negative. -/
example : exceeds ieeeFloat (1 / 10000) (.num 384) (.inf false) = false := by decide +kernel
example : exceeds ieeeFloat (1 / 10000) (.num (-384)) (.num (-1)) = false := by decide +kernel

/-- Arrays one after the other. -/
example : ∃ m', matrixProgram ieeeFloat ieeeDouble true (fun n => .num (if n % 2 = 0 then 1 / 2 else 1))
    ⟨0, 589824, 1179648, fun _ => 1327104, fun _ => 1474560, fun _ _ => 20000000⟩ (fun _ => .nan) = some (0, m') := by
  refine C93_matrix ?_ true (fun _ _ _ => by norm_num) _ (fun n => ?_) _
  · constructor <;> (try intro t) <;> unfold BlocksApart <;> dsimp only <;> omega
  · unfold UnitFloat
    split
    · exact ⟨⟨1, -1, by norm_num, by norm_num, by norm_num [Ieee.finite], by norm_num [largestFloat]⟩,
        by norm_num [Ieee.value], by norm_num [Ieee.value]⟩
    · exact ⟨⟨1, 0, by norm_num, by norm_num, by norm_num [Ieee.finite], by norm_num [largestFloat]⟩,
        by norm_num [Ieee.value], by norm_num [Ieee.value]⟩

/-- Inputs that are NaN everywhere: the outputs are NaN and 0, which is not reported. -/
example : ∃ m', convolutionProgram ieeeFloat ieeeDouble true (fun _ => .nan)
    ⟨0, 5500000, 5700000, 6000000, 12000000, fun _ => 30000000, fun _ => 3000000⟩ (fun _ => .num 0) = some ([], m') := by
  refine C93_convolution ?_ true (fun _ _ => by norm_num) (fun _ _ => by norm_num) _ _
  constructor <;> unfold BlocksApart <;> dsimp only <;> omega

end Nda
