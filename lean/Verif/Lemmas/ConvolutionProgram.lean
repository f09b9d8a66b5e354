import Verif.Lemmas.MatrixProgram
import Verif.Props.Convolution
import Verif.Props.IndexLoops
/-
Lemmas on the convolution program (C93).
-/
namespace Nda
open Spec
variable {F : Type}

/-- One digit of an offset. -/
theorem digit_unique {x i i' q q' : Int} (h0 : 0 ≤ i) (h1 : i < x) (h0' : 0 ≤ i') (h1' : i' < x)
    (h : i + x * q = i' + x * q') : i = i' ∧ q = q' := by
  have hq : q = q' := by
    have h2 : (i + x * q) / x = q := by
      rw [Int.add_mul_ediv_left _ _ (by omega), Int.ediv_eq_zero_of_lt h0 h1, zero_add]
    have h3 : (i' + x * q') / x = q' := by
      rw [Int.add_mul_ediv_left _ _ (by omega), Int.ediv_eq_zero_of_lt h0' h1', zero_add]
    rw [← h2, ← h3, h]
  subst hq
  exact ⟨by omega, rfl⟩

theorem tensor_box {p x y z w : Int} {l : List Int} (h : InBox (tensorAt p x y z w).shape l) :
    ∃ i j k n, l = [i, j, k, n] ∧ (0 ≤ i ∧ i < x) ∧ (0 ≤ j ∧ j < y) ∧ (0 ≤ k ∧ k < z) ∧ 0 ≤ n ∧ n < w := by
  match l, h with
  | [i, j, k, n], h =>
    simp only [tensorAt, InBox, and_true, zero_add] at h
    exact ⟨i, j, k, n, rfl, h⟩

theorem tensor_in {p x y z w i j k n : Int} (hi : 0 ≤ i ∧ i < x) (hj : 0 ≤ j ∧ j < y) (hk : 0 ≤ k ∧ k < z)
    (hn : 0 ≤ n ∧ n < w) : InBox (tensorAt p x y z w).shape [i, j, k, n] := by
  simp only [tensorAt, InBox, and_true, zero_add]
  exact ⟨hi, hj, hk, hn⟩

theorem tensor_address (p x y z w q i j k n : Int) :
    addressOf (tensorAt p x y z w) q [i, j, k, n] = q + (i + x * (j + y * (k + z * n))) := by
  simp only [addressOf, tensorAt, offsetOf]
  ring

theorem tensor_injective {p x y z w q : Int} (i j : List Int) (hi : InBox (tensorAt p x y z w).shape i)
    (hj : InBox (tensorAt p x y z w).shape j)
    (h : addressOf (tensorAt p x y z w) q i = addressOf (tensorAt p x y z w) q j) : i = j := by
  obtain ⟨a, b, c, d, rfl, ha, hb, hc, hd⟩ := tensor_box hi
  obtain ⟨a', b', c', d', rfl, ha', hb', hc', hd'⟩ := tensor_box hj
  rw [tensor_address, tensor_address] at h
  obtain ⟨rfl, h1⟩ := digit_unique ha.1 ha.2 ha'.1 ha'.2 (add_left_cancel h)
  obtain ⟨rfl, h2⟩ := digit_unique hb.1 hb.2 hb'.1 hb'.2 h1
  obtain ⟨rfl, rfl⟩ := digit_unique hc.1 hc.2 hc'.1 hc'.2 h2
  rfl

theorem tensor_block {p x y z w q : Int} (l : List Int) (hl : InBox (tensorAt p x y z w).shape l) :
    q ≤ addressOf (tensorAt p x y z w) q l ∧ addressOf (tensorAt p x y z w) q l < q + x * y * z * w := by
  obtain ⟨a, b, c, d, rfl, ha, hb, hc, hd⟩ := tensor_box hl
  rw [tensor_address]
  have h1 := dense_index hd.1 hd.2 hc.1 hc.2
  have h2 := dense_index h1.1 h1.2 hb.1 hb.2
  have h3 := dense_index h2.1 h2.2 ha.1 ha.2
  have e1 : ((d * z + c) * y + b) * x + a = a + x * (b + y * (c + z * d)) := by ring
  have e2 : w * z * y * x = x * y * z * w := by ring
  rw [e1, e2] at h3
  omega

theorem vector_block {p n q : Int} (l : List Int) (hl : InBox (vectorAt p n).shape l) :
    q ≤ addressOf (vectorAt p n) q l ∧ addressOf (vectorAt p n) q l < q + n := by
  match l, hl with
  | [i], h =>
    simp only [vectorAt, InBox, and_true, zero_add] at h
    simp only [addressOf, vectorAt, offsetOf]
    omega

theorem program_convolvable {pi pf pb po N CI CO W H : Int} (hN : 0 ≤ N) (hCI : 0 ≤ CI) (hCO : 0 ≤ CO) (hW : 0 ≤ W)
    (hH : 0 ≤ H) (hi : BlocksApart pi (CI * (W + 2) * (H + 2) * N) po (CO * W * H * N))
    (hf : BlocksApart pf (CO * 3 * 3 * CI) po (CO * W * H * N)) (hb : BlocksApart pb CO po (CO * W * H * N)) :
    Convolvable (tensorAt pi CI (W + 2) (H + 2) N) (tensorAt pf CO 3 3 CI) (vectorAt pb CO) (tensorAt po CO W H N)
      pi pf pb po := by
  have nonneg : ∀ p x y z w : Int, 0 ≤ x → 0 ≤ y → 0 ≤ z → 0 ≤ w → NonNeg (tensorAt p x y z w).shape := by
    intro p x y z w hx hy hz hw d hd
    simp only [tensorAt, List.mem_cons, List.not_mem_nil, or_false] at hd
    rcases hd with rfl | rfl | rfl | rfl <;> assumption
  refine ⟨rfl, rfl, rfl, rfl, ⟨rfl, nonneg _ _ _ _ _ hCO (by norm_num) (by norm_num) hCI⟩,
    ⟨rfl, nonneg _ _ _ _ _ hCO hW hH hN⟩, ?_, ?_, tensor_injective, ?_⟩
  · intro co x y n h
    obtain ⟨i, j, k, l, e, h1, -⟩ := tensor_box h
    cases e
    simp only [vectorAt, InBox, and_true, zero_add]
    exact h1
  · intro co x y n h ci dy dx hci hdy hdx
    obtain ⟨i, j, k, l, e, h1, h2, h3, h4⟩ := tensor_box h
    cases e
    have c1 : 0 ≤ ci ∧ ci < 0 + CI := hci
    have c2 : 0 ≤ dy ∧ dy < 0 + 3 := hdy
    have c3 : 0 ≤ dx ∧ dx < 0 + 3 := hdx
    exact ⟨tensor_in h1 (by omega) (by omega) (by omega), tensor_in (by omega) (by omega) (by omega) h4⟩
  · intro i h j
    have h0 := tensor_block (q := po) i h
    unfold BlocksApart at hi hf hb
    refine ⟨fun h1 => ?_, fun h1 => ?_, fun h1 => ?_⟩
    · have := tensor_block (q := pi) j h1
      omega
    · have := tensor_block (q := pf) j h1
      omega
    · have := vector_block (q := pb) j h1
      omega

/-- The convolution depends on the elements of its arguments. -/
theorem convolution_congr {o : ScalarOps F} {input filter bias output : ArrayRef} {bi bf bb bo : Int}
    (h : Convolvable input filter bias output bi bf bb bo) {m m' : Mem F}
    (hi : ∀ j, InBox input.shape j → m' (addressOf input bi j) = m (addressOf input bi j))
    (hf : ∀ j, InBox filter.shape j → m' (addressOf filter bf j) = m (addressOf filter bf j))
    (hb : ∀ j, InBox bias.shape j → m' (addressOf bias bb j) = m (addressOf bias bb j)) {co x y n : Int}
    (hc : InBox output.shape [co, x, y, n]) :
    convolution o input filter bias bi bf bb m' co x y n = convolution o input filter bias bi bf bb m co x y n := by
  unfold convolution
  rw [hb _ (h.biasRead _ _ _ _ hc)]
  refine List.foldl_ext _ _ _ fun s ci hci => List.foldl_ext _ _ _ fun s dy hdy => List.foldl_ext _ _ _ fun s dx hdx => ?_
  obtain ⟨h1, h2⟩ := h.read _ _ _ _ hc ci dy dx (mem_ascending.1 hci) (mem_ascending.1 hdy) (mem_ascending.1 hdx)
  rw [hf _ h1, hi _ h2]

/-- Running a layer several times. -/
theorem layer_run {o : ScalarOps F} {relu : F → F} {input filter bias output : ArrayRef} {bi bf bb bo : Int}
    (h : Convolvable input filter bias output bi bf bb bo) {clock : Nat → Int} (hc : Measured clock)
    {op : Mem F → Option (Mem F)}
    (hop : ∀ m, ∃ m', op m = some m' ∧ IsLayer o relu input filter bias output bi bf bb bo m m') (m : Mem F) :
    ∃ time m', benchmark ieeeDouble op clock m = some (time, m') ∧
      IsLayer o relu input filter bias output bi bf bb bo m m' := by
  obtain ⟨n, time, k, it, hT, -, hrun⟩ := benchmark_trials hc 10 0 1 (ieeeDouble.lit 0) (by omega) rfl le_rfl (by norm_num)
  obtain ⟨m', e, p⟩ := repeat_spec hop (fun m m₁ m₂ h1 h2 => by
    refine ⟨fun co x y n hb => ?_, fun p hp => (h2.2 p hp).trans (h1.2 p hp)⟩
    rw [h2.1 co x y n hb, convolution_congr h (m := m) (m' := m₁) (fun j hj => h1.2 _ fun i hi => ((h.separate i hi j).1 hj).symm)
      (fun j hj => h1.2 _ fun i hi => ((h.separate i hi j).2.1 hj).symm)
      (fun j hj => h1.2 _ fun i hi => ((h.separate i hi j).2.2 hj).symm) hb]) n m (by
    have := hT.least
    omega)
  exact ⟨time, m', by rw [benchmark, hrun, e]; rfl, p⟩

/-- Both ways to write `relu` differ on NaN only, and that is not seen. -/
theorem relu_agree (v : Ieee) : exceeds ieeeFloat (1 / 100000)
    (if ieeeFloat.scalar.lt v ieeeFloat.scalar.zero then ieeeFloat.scalar.zero else v)
    (if ieeeFloat.scalar.lt ieeeFloat.scalar.zero v then v else ieeeFloat.scalar.zero) = false := by
  have hn : (1 / 1000000 : ℚ) ≤ 1 / 100000 ∧ (1 / 100000 : ℚ) ≤ 1 := by norm_num
  rcases v with q | (_ | _) | _
  · show exceeds ieeeFloat _ (if decide (q < 0) = true then .num 0 else .num q)
      (if decide (0 < q) = true then .num q else .num 0) = false
    rcases lt_trichotomy q 0 with h | h | h
    · simp only [h, h.le, not_lt_of_ge, decide_true, decide_false, if_true]
      exact exceeds_self hn.1 hn.2 _
    · subst h
      simp only [lt_irrefl, decide_false]
      exact exceeds_self hn.1 hn.2 _
    · simp only [h, h.le, not_lt_of_ge, decide_true, decide_false, if_true]
      exact exceeds_self hn.1 hn.2 _
  · exact exceeds_self hn.1 hn.2 (.inf false)
  · exact exceeds_self hn.1 hn.2 (.num 0)
  · exact exceeds_nan rfl

theorem convolutionProgramOf_spec {run : ConvolutionRun} {N CI CO W H : Int} (hmem : ConvolutionMemory run N CI CO W H)
    (hN : 0 ≤ N) (hCI : 0 ≤ CI) (hCO : 24 ≤ CO) (hW : 4 ≤ W) (hH : 0 ≤ H) (debug : Bool)
    (hc1 : Measured run.naiveClock) (hc2 : Measured run.tiledClock) (random : Nat → Ieee) (m : Mem Ieee) :
    ∃ m', convolutionProgramOf ieeeFloat ieeeDouble N CI CO W H debug random run m = some ([], m') := by
  unfold convolutionProgramOf
  dsimp only
  generalize (generateRandom (vectorAt run.bias CO) random _ _).2 = m0
  have hv := program_convolvable hN hCI (by omega) (by omega) hH hmem.inputNaive hmem.filterNaive hmem.biasNaive
  have hv' := program_convolvable hN hCI (by omega) (by omega) hH hmem.inputTiled hmem.filterTiled hmem.biasTiled
  obtain ⟨t1, m1, e1, p1⟩ := layer_run hv hc1 (fun m => C54_naive ieeeFloat.scalar _ _ _ _ _ _ _ _ m hv) m0
  obtain ⟨t2, m2, e2, p2⟩ := layer_run hv' hc2 (fun m => C54_tiled ieeeFloat.scalar _ _ _ _ _ _ _ _ m debug 4 24 hv'
    (by norm_num) (by norm_num) (Or.inl hW) (Or.inl hCO)) m1
  rw [e1]
  simp only [Option.bind_eq_bind, Option.bind_some]
  rw [e2]
  simp only [Option.bind_some]
  suffices h : convolutionReports ieeeFloat (tensorAt run.naive CO W H N) (tensorAt run.tiled CO W H N) m2 = some [] by
    rw [h]
    exact ⟨m2, rfl⟩
  unfold convolutionReports
  obtain ⟨tr, htr, hen, -⟩ := C12_for_each_index (tensorAt run.naive CO W H N).shape hv.outputRank.2
  rw [htr]
  simp only [Option.bind_eq_bind, Option.bind_some]
  have key : ∀ l : List Index, (∀ i ∈ l, i ∈ tr) → l.foldlM (fun reported i =>
      ((tensorAt run.naive CO W H N).element i).bind fun x => ((tensorAt run.tiled CO W H N).element i).bind fun y =>
        (pure (if exceeds ieeeFloat (1 / 100000) (m2 x) (m2 y) = true then reported ++ [i] else reported) : Option _)) [] =
      some [] := by
    intro l
    induction l with
    | nil => intro _; rfl
    | cons i l ih =>
      intro hl
      have hb := (hen.2 i).1 (hl i (by simp))
      obtain ⟨co, x, y, n, rfl, hco, hx, hy, hn⟩ := tensor_box hb
      have hb' : InBox (tensorAt run.tiled CO W H N).shape [co, x, y, n] := tensor_in hco hx hy hn
      have hout := hmem.outputs
      unfold BlocksApart at hout
      have ex : m2 (addressOf (tensorAt run.naive CO W H N) run.naive [co, x, y, n]) =
          m1 (addressOf (tensorAt run.naive CO W H N) run.naive [co, x, y, n]) := by
        refine p2.2 _ fun j hj => ?_
        have h1 := tensor_block (q := run.naive) _ hb
        have h2 := tensor_block (q := run.tiled) _ hj
        omega
      have ec := convolution_congr (o := ieeeFloat.scalar) hv (m := m0) (m' := m1)
        (fun j hj => p1.2 _ fun i hi => ((hv.separate i hi j).1 hj).symm)
        (fun j hj => p1.2 _ fun i hi => ((hv.separate i hi j).2.1 hj).symm)
        (fun j hj => p1.2 _ fun i hi => ((hv.separate i hi j).2.2 hj).symm) hb
      rw [List.foldlM_cons, element_eq (b := run.naive) rfl hb, element_eq (b := run.tiled) rfl hb']
      simp only [Option.bind_some]
      rw [ex, p1.1 _ _ _ _ hb, p2.1 _ _ _ _ hb', ec, relu_agree]
      exact ih fun j hj => hl j (List.mem_cons_of_mem _ hj)
  exact key tr fun _ h => h

end Nda
