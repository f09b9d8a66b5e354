import Verif.Lemmas.KernelsFloat
import Verif.Props.KernelsBuild
/-
Sums of the values of kernels that are computed in binary32.
-/
namespace Nda
open Spec Kernel

/-- What the proofs need of an exact kernel. -/
structure TameKernel (K : ℚ → ℚ) : Prop where
  lipschitz : ∀ s t, |K s - K t| ≤ 2 * |s - t|
  bound : ∀ s, |K s| ≤ 1
  far : ∀ s, 2 ≤ |s| → K s = 0
  lobes : ∃ c, Lobes K c ∧ ∀ s, |s| ≤ 1 / 2 → 4 * c + 1 / 4 ≤ K s

theorem lip_poly {d q : ℚ} (hq : |q| ≤ 2) : |d * q| ≤ 2 * |d| := by
  rw [abs_mul, mul_comm 2]
  exact mul_le_mul_of_nonneg_left hq (abs_nonneg _)

/-- Two pieces. -/
theorem lip_glue {f : ℚ → ℚ} {a b c : ℚ} (hab : a ≤ b)
    (h1 : ∀ s t, a ≤ s → s ≤ t → t ≤ b → |f s - f t| ≤ 2 * |s - t|)
    (h2 : ∀ s t, b ≤ s → s ≤ t → t ≤ c → |f s - f t| ≤ 2 * |s - t|) :
    ∀ s t, a ≤ s → s ≤ t → t ≤ c → |f s - f t| ≤ 2 * |s - t| := by
  intro s t hs hst ht
  rcases le_total t b with h | h
  · exact h1 s t hs hst h
  · rcases le_total b s with h' | h'
    · exact h2 s t h' hst ht
    · have a1 := h1 s b hs h' le_rfl
      have a2 := h2 b t le_rfl h ht
      have a3 := abs_add_le (f s - f b) (f b - f t)
      rw [sub_add_sub_cancel] at a3
      rw [abs_of_nonpos (by linarith : s - b ≤ 0)] at a1
      rw [abs_of_nonpos (by linarith : b - t ≤ 0)] at a2
      rw [abs_of_nonpos (by linarith : s - t ≤ 0)]
      linarith

/-- Even functions that are zero from two on. -/
theorem lip_even {f : ℚ → ℚ} (he : ∀ s, f s = f |s|) (h2 : ∀ s, 2 ≤ |s| → f s = 0)
    (h : ∀ s t, 0 ≤ s → s ≤ t → t ≤ 2 → |f s - f t| ≤ 2 * |s - t|) : ∀ s t, |f s - f t| ≤ 2 * |s - t| := by
  have main : ∀ s t, 0 ≤ s → s ≤ t → |f s - f t| ≤ 2 * |s - t| := by
    intro s t hs hst
    refine lip_glue (by norm_num : (0 : ℚ) ≤ 2) h (c := t) (fun s t h1 h3 _ => ?_) s t hs hst le_rfl
    rw [h2 s (le_trans h1 (le_abs_self _)), h2 t (le_trans (h1.trans h3) (le_abs_self _)), sub_zero, abs_zero]
    positivity
  intro s t
  rw [he s, he t]
  have : |f (|s|) - f (|t|)| ≤ 2 * |(|s|) - (|t|)| := by
    rcases le_total |s| |t| with h | h
    · exact main _ _ (abs_nonneg _) h
    · rw [abs_sub_comm, abs_sub_comm (|s|)]
      exact main _ _ (abs_nonneg _) h
  exact this.trans (mul_le_mul_of_nonneg_left (abs_abs_sub_abs_le s t) (by norm_num))

theorem bound_of {K : ℚ → ℚ} (h : ∀ s, |s| ≤ 2 → -1 ≤ K s ∧ K s ≤ 1) (hf : ∀ s, 2 ≤ |s| → K s = 0) : ∀ s, |K s| ≤ 1 := by
  intro s
  rcases le_total |s| 2 with h' | h'
  · exact abs_le.2 (h s h')
  · rw [hf s h']; norm_num

theorem even_abs {K : ℚ → ℚ} (h : ∀ s, K (-s) = K s) (s : ℚ) : K s = K |s| := by
  rcases abs_choice s with e | e
  · rw [e]
  · rw [e, h]

theorem tame_linear : TameKernel linear := by
  have far : ∀ s : ℚ, 2 ≤ |s| → linear s = 0 := fun s hs => C62_linear.2.1 s (by linarith)
  have near : ∀ s : ℚ, 0 ≤ s → s ≤ 1 → linear s = 1 - s := fun s h0 h1 => by
    rw [linear_eq (by rw [abs_of_nonneg h0]; exact h1), abs_of_nonneg h0]
  refine ⟨lip_even (even_abs C62_linear.1) far (lip_glue (b := 1) (by norm_num) ?_ ?_),
    fun s => ?_, far, 0, ?_, fun s hs => ?_⟩
  · intro s t hs hst ht
    rw [near s hs (by linarith), near t (by linarith) ht, show 1 - s - (1 - t) = (s - t) * (-1) by ring]
    exact lip_poly (by norm_num)
  · intro s t hs hst ht
    rw [C62_linear.2.1 s (hs.trans (le_abs_self _)), C62_linear.2.1 t ((hs.trans hst).trans (le_abs_self _)), sub_zero, abs_zero]
    positivity
  · rw [abs_of_nonneg (C62_linear.2.2.2.1 s).1]
    exact (C62_linear.2.2.2.1 s).2
  · exact lobes_of_nonneg C62_linear.1 (fun s => (C62_linear.2.2.2.1 s).1) far
      (fun s hs => C62_linear.2.2.1 s (by linarith))
  · rw [linear_eq (by linarith)]; linarith

theorem quadratic_lip (r : ℚ) (h0 : 0 ≤ r) (h1 : r ≤ 1) : ∀ s t : ℚ, |quadraticFamily s r - quadraticFamily t r| ≤ 2 * |s - t| := by
  have near : ∀ s : ℚ, 0 ≤ s → s ≤ 1 / 2 → quadraticFamily s r = -2 * r * s ^ 2 + 1 / 2 * (r + 1) := by
    intro s h h'
    rcases h'.lt_or_eq with h2 | h2
    · exact quadratic_near (by rw [abs_of_nonneg h]; exact h2)
    · rw [quadratic_mid (by rw [abs_of_nonneg h]; linarith) (by rw [abs_of_nonneg h]; linarith), abs_of_nonneg h, h2]
      ring
  have mid : ∀ s : ℚ, 1 / 2 ≤ s → s ≤ 3 / 2 → quadraticFamily s r = r * s ^ 2 + (-2 * r - 1 / 2) * s + 3 / 4 * (r + 1) := by
    intro s h h'
    have e : |s| = s := abs_of_nonneg (by linarith)
    rw [quadratic_mid (by rw [e]; exact h) (by rw [e]; exact h'), e]
  refine lip_even (even_abs (quadratic_even r)) (fun s hs => quadratic_far (by linarith))
    (lip_glue (b := 1 / 2) (by norm_num) ?_ (lip_glue (b := 3 / 2) (by norm_num) ?_ ?_))
  · intro s t hs hst ht
    rw [near s hs (by linarith), near t (by linarith) ht,
      show -2 * r * s ^ 2 + 1 / 2 * (r + 1) - (-2 * r * t ^ 2 + 1 / 2 * (r + 1)) = (s - t) * (-2 * r * (s + t)) by ring]
    refine lip_poly (abs_le.2 ⟨?_, ?_⟩)
    · nlinarith
    · nlinarith [mul_nonneg h0 (by linarith : 0 ≤ s + t)]
  · intro s t hs hst ht
    rw [mid s hs (by linarith), mid t (by linarith) ht,
      show r * s ^ 2 + (-2 * r - 1 / 2) * s + 3 / 4 * (r + 1) - (r * t ^ 2 + (-2 * r - 1 / 2) * t + 3 / 4 * (r + 1)) =
        (s - t) * (r * (s + t - 2) - 1 / 2) by ring]
    refine lip_poly (abs_le.2 ⟨?_, ?_⟩) <;> nlinarith
  · intro s t hs hst ht
    rw [quadratic_far (hs.trans (le_abs_self _)), quadratic_far ((hs.trans hst).trans (le_abs_self _)), sub_zero, abs_zero]
    positivity

theorem tame_quadratic : TameKernel interpolatingQuadratic := by
  have far : ∀ s : ℚ, 2 ≤ |s| → interpolatingQuadratic s = 0 := fun s hs => C62_interpolating_quadratic.2.1 s (by linarith)
  have half : ∀ s : ℚ, |s| ≤ 1 / 2 → interpolatingQuadratic s = 1 - 2 * s ^ 2 := by
    intro s hs
    unfold interpolatingQuadratic
    rcases hs.lt_or_eq with h | h
    · rw [quadratic_near h]; ring
    · rw [quadratic_mid h.ge (by linarith), ← sq_abs, h]; norm_num
  refine ⟨quadratic_lip 1 (by norm_num) le_rfl, bound_of (fun s hs => ?_) far, far, _, lobes_quadratic, fun s hs => ?_⟩
  · rcases le_total |s| (1 / 2) with h | h
    · rw [half s h, ← sq_abs]
      have := abs_nonneg s
      constructor <;> nlinarith
    · rcases le_total |s| (3 / 2) with h' | h'
      · unfold interpolatingQuadratic
        rw [quadratic_mid h h', ← sq_abs]
        constructor <;> nlinarith
      · rw [C62_interpolating_quadratic.2.1 s h']; norm_num
  · rw [half s hs, ← sq_abs]
    have := abs_nonneg s
    nlinarith

theorem tame_quadratic_bspline : TameKernel quadraticBspline := by
  have far : ∀ s : ℚ, 2 ≤ |s| → quadraticBspline s = 0 := fun s hs => C62_quadratic_bspline.2.1 s (by linarith)
  have nonneg : ∀ s : ℚ, 0 ≤ quadraticBspline s := by
    intro s
    rcases lt_or_ge |s| (3 / 2) with h | h
    · exact (C62_quadratic_bspline.2.2.1 s h).le
    · rw [C62_quadratic_bspline.2.1 s h]
  refine ⟨quadratic_lip (1 / 2) (by norm_num) (by norm_num), fun s => ?_, far, 0, lobes_of_nonneg C62_quadratic_bspline.1 nonneg
    far (fun s hs => C62_quadratic_bspline.2.2.1 s (by linarith)), fun s hs => ?_⟩
  · rw [abs_of_nonneg (nonneg s)]
    exact (C62_quadratic_bspline.2.2.2.1 s).trans (by norm_num)
  · unfold quadraticBspline
    have h0 := abs_nonneg s
    rcases hs.lt_or_eq with h | h
    · rw [quadratic_near h, ← sq_abs]; nlinarith
    · rw [quadratic_mid h.ge (by linarith), ← sq_abs, h]; norm_num

theorem cubic_lip (B C : ℚ)
    (hn : ∀ s t : ℚ, 0 ≤ s → s ≤ t → t ≤ 1 → |(2 - B * (3 / 2) - C) * (s ^ 2 + s * t + t ^ 2) + (-3 + 2 * B + C) * (s + t)| ≤ 2)
    (hm : ∀ s t : ℚ, 1 ≤ s → s ≤ t → t ≤ 2 →
      |(-B / 6 - C) * (s ^ 2 + s * t + t ^ 2) + (B + 5 * C) * (s + t) + (-2 * B - 8 * C)| ≤ 2) :
    ∀ s t : ℚ, |cubicFamily s B C - cubicFamily t B C| ≤ 2 * |s - t| := by
  refine lip_even (even_abs (cubic_even B C)) (fun s hs => cubic_far hs) (lip_glue (b := 1) (by norm_num) ?_ ?_)
  · intro s t hs hst ht
    have e1 : |s| = s := abs_of_nonneg hs
    have e2 : |t| = t := abs_of_nonneg (by linarith)
    rw [cubic_near (by rw [e1]; linarith), cubic_near (by rw [e2]; exact ht), e1, e2]
    refine le_trans (le_of_eq ?_) (lip_poly (hn s t hs hst ht))
    congr 1
    ring
  · intro s t hs hst ht
    have e1 : |s| = s := abs_of_nonneg (by linarith)
    have e2 : |t| = t := abs_of_nonneg (by linarith)
    rw [cubic_mid (by rw [e1]; exact hs) (by rw [e1]; linarith), cubic_mid (by rw [e2]; linarith) (by rw [e2]; exact ht), e1, e2]
    refine le_trans (le_of_eq ?_) (lip_poly (hm s t hs hst ht))
    congr 1
    ring

theorem tame_cubic : TameKernel interpolatingCubic := by
  have far : ∀ s : ℚ, 2 ≤ |s| → interpolatingCubic s = 0 := C62_interpolating_cubic.2.1
  have near : ∀ s : ℚ, |s| ≤ 1 → interpolatingCubic s = 3 / 2 * |s| ^ 3 - 5 / 2 * |s| ^ 2 + 1 := by
    intro s hs
    unfold interpolatingCubic
    rw [cubic_near hs]
    ring
  have mid : ∀ s : ℚ, 1 ≤ |s| → |s| ≤ 2 → interpolatingCubic s = -(1 / 2) * (|s| - 1) * (2 - |s|) ^ 2 := by
    intro s h1 h2
    unfold interpolatingCubic
    rw [cubic_mid h1 h2]
    ring
  refine ⟨cubic_lip 0 (1 / 2) (fun s t hs hst ht => ?_) fun s t hs hst ht => ?_, bound_of (fun s hs => ?_) far, far, _, lobes_cubic,
    fun s hs => ?_⟩
  · rw [abs_le]
    constructor
    · nlinarith [sq_nonneg (s - t), sq_nonneg (s + t - 10 / 9)]
    · nlinarith [mul_nonneg hs (sub_nonneg.2 hst)]
  · rw [abs_le]
    constructor
    · nlinarith [sq_nonneg (s - t), mul_nonneg (sub_nonneg.2 hs) (sub_nonneg.2 ht)]
    · nlinarith [sq_nonneg (s - t), sq_nonneg (s + t - 10 / 3)]
  · have h0 := abs_nonneg s
    rcases le_total |s| 1 with h | h
    · rw [near s h]
      constructor
      · nlinarith [pow_nonneg h0 3]
      · nlinarith [mul_nonneg (mul_nonneg h0 h0) (sub_nonneg.2 h)]
    · rw [mid s h hs]
      have a1 : 0 ≤ (|s| - 1) * (2 - |s|) ^ 2 := mul_nonneg (by linarith) (sq_nonneg _)
      have a2 : 0 ≤ (|s| - 4 / 3) ^ 2 * (7 / 3 - |s|) := mul_nonneg (sq_nonneg _) (by linarith)
      constructor <;> nlinarith
  · have h0 := abs_nonneg s
    rw [near s (by linarith)]
    have h1 : 0 ≤ |s| * |s| * (1 / 2 - |s|) := mul_nonneg (mul_nonneg h0 h0) (by linarith)
    nlinarith

theorem tame_cubic_bspline : TameKernel cubicBspline := by
  have far : ∀ s : ℚ, 2 ≤ |s| → cubicBspline s = 0 := C62_cubic_bspline.2.1
  have nonneg : ∀ s : ℚ, 0 ≤ cubicBspline s := by
    intro s
    rcases lt_or_ge |s| 2 with h | h
    · exact (C62_cubic_bspline.2.2.1 s h).le
    · rw [far s h]
  refine ⟨cubic_lip 1 0 (fun s t hs hst ht => ?_) fun s t hs hst ht => ?_, fun s => ?_, far, 0,
    lobes_of_nonneg C62_cubic_bspline.1 nonneg far (fun s hs => C62_cubic_bspline.2.2.1 s (by linarith)), fun s hs => ?_⟩
  · rw [abs_le]
    constructor
    · nlinarith [sq_nonneg (s - t), sq_nonneg (s + t - 4 / 3)]
    · nlinarith [mul_nonneg hs (sub_nonneg.2 hst)]
  · rw [abs_le]
    constructor
    · nlinarith [sq_nonneg (s - t), mul_nonneg (sub_nonneg.2 hs) (sub_nonneg.2 ht)]
    · nlinarith [sq_nonneg (s - t), sq_nonneg (s + t - 4)]
  · rw [abs_of_nonneg (nonneg s)]
    exact (C62_cubic_bspline.2.2.2.1 s).trans (by norm_num)
  · unfold cubicBspline
    have h0 := abs_nonneg s
    rw [cubic_near (by linarith)]
    have h1 : 0 ≤ |s| ^ 3 := pow_nonneg h0 3
    nlinarith

/-- Integers that are close together. -/
theorem card_close (S : Finset Int) (N : Nat) (h : ∀ i ∈ S, ∀ j ∈ S, j - i < N) : S.card ≤ N := by
  rcases S.eq_empty_or_nonempty with rfl | hS
  · simp
  · have hsub : S ⊆ Finset.Ico (S.min' hS) (S.min' hS + N) := by
      intro i hi
      have h1 := S.min'_le i hi
      have h2 := h _ (S.min'_mem hS) i hi
      exact Finset.mem_Ico.2 ⟨h1, by omega⟩
    have := Finset.card_le_card hsub
    rw [Int.card_Ico] at this
    omega

/-- The error of the positions of kernels, in binary32. -/
theorem position_le {b : ℚ} (hb : 0 ≤ b) :
    positionError ((2 : ℚ)⁻¹ ^ 24) ((2 : ℚ) ^ (-150 : Int)) b ≤ 10 / 2 ^ 24 * b + 1 / 2 ^ 24 := by
  have hη : (2 : ℚ) ^ (-150 : Int) ≤ 1 / 10 * (1 / 2 ^ 24) := by norm_num
  have hη0 := (two_zpow_pos (-150)).le
  have h := C84_position (u := (2 : ℚ)⁻¹ ^ 24) (η := (2 : ℚ) ^ (-150 : Int)) (b := b) (by positivity) (by norm_num) hη0
    (hη.trans (by norm_num)) hb
  have hu : (2 : ℚ)⁻¹ ^ 24 = 1 / 2 ^ 24 := by norm_num
  rw [hu] at h ⊢
  set η := (2 : ℚ) ^ (-150 : Int)
  refine h.trans ?_
  have : η * b ≤ 1 / 10 * (1 / 2 ^ 24) * b := mul_le_mul_of_nonneg_right hη hb
  linarith

/-- The weights of a kernel in binary32, next to the exact ones. -/
theorem float_weights {k : Option ℚ → Option ℚ} {K : ℚ → ℚ} {r ε : ℚ} (hk : Computes k K r ε) (hr2 : r ≤ 2)
    (hε : ε ≤ 1 / 2 ^ 17) (hK : TameKernel K) (rate p : Rational) (hr : Canonical rate) (hr0 : 0 < value rate)
    (hp : Canonical p) (v : Interval) {b : ℚ} (hb : ∀ i, InInterval v i → |(i : ℚ)| + |value p| ≤ b) {N : Nat}
    (hN : 9 / 2 ≤ N * min (value rate) 1) (hN2 : N ≤ 500) (hNb : N * (b + 7) ≤ 100000)
    (hsum : 1 / 4 ≤ ∑ i ∈ spanOf v, K ((i - value p) * min (value rate) 1)) :
    GoodWeights IsFloat (fun x => x.getD 0) ((2 : ℚ)⁻¹ ^ 24) largestFloat N v (weight float32 k rate p) ∧
    ∑ i ∈ spanOf v, |(weight float32 k rate p i).getD 0 - K ((i - value p) * min (value rate) 1)| ≤
      N * (20 / 2 ^ 24 * (b + 7)) ∧
    1 / 8 ≤ weightSum (fun x => x.getD 0) v (weight float32 k rate p) ∧
    condition (fun x => x.getD 0) v (weight float32 k rate p) ≤ 16 * N ∧
    sumError ((2 : ℚ)⁻¹ ^ 24) N (condition (fun x => x.getD 0) v (weight float32 k rate p)) ≤ 1 / 2 := by
  set t := min (value rate) 1 with ht
  have t1 : t ≤ 1 := min_le_right _ _
  have t0 : 0 < t := lt_min hr0 (by norm_num)
  have N5 : (9 / 2 : ℚ) ≤ N := hN.trans (mul_le_of_le_one_right (by positivity) t1)
  -- there is a pixel
  obtain ⟨j0, hj0⟩ : (spanOf v).Nonempty := by
    rw [Finset.nonempty_iff_ne_empty]
    intro h
    rw [h, Finset.sum_empty] at hsum
    norm_num at hsum
  have b0 : 0 ≤ b := (add_nonneg (abs_nonneg _) (abs_nonneg _)).trans (hb j0 (Finset.mem_Ico.1 hj0))
  have b1 : b ≤ 22222 := by nlinarith
  set E := 20 / 2 ^ 24 * (b + 7) with hE
  have E0 : 0 ≤ E := by positivity
  have hNE : N * E ≤ 1 / 8 := by
    have : N * E = 20 / 2 ^ 24 * (N * (b + 7)) := by rw [hE]; ring
    rw [this]
    linarith
  -- positions
  have hu : (2 : ℚ)⁻¹ ^ 24 ≤ 1 / 8 := by norm_num
  have hη : (2 : ℚ) ^ (-150 : Int) ≤ 1 := by norm_num
  have hΩ : (2 : ℚ) ^ 67 ≤ largestFloat := by unfold largestFloat; norm_num
  have int : ∀ i, InInterval v i → |(i : ℚ)| ≤ 2 ^ 63 := fun i hi => by
    have h1 := hb i hi
    have h2 := abs_nonneg (value p)
    norm_num
    linarith
  have pos : ∀ i, InInterval v i → IsFloat (weight float32 id rate p i) ∧
      |(weight float32 id rate p i).getD 0 - (i - value p) * t| ≤ 10 / 2 ^ 24 * b + 1 / 2 ^ 24 := by
    intro i hi
    obtain ⟨h1, h2⟩ := C84_weight C84_float hu hη hΩ id id 1 0 (fun s t => by simp) (fun s hs => ⟨hs, by simp⟩) rate p hr hr0 hp i
      (int i hi)
    refine ⟨h1, h2.trans ?_⟩
    have h3 := position_le (add_nonneg (abs_nonneg (i : ℚ)) (abs_nonneg (value p)))
    have h4 := hb i hi
    rw [zero_add, one_mul]
    refine h3.trans ?_
    linarith
  have val : ∀ i, weight float32 k rate p i = k (weight float32 id rate p i) := fun i => rfl
  have fin : ∀ i, InInterval v i → IsFloat (weight float32 k rate p i) := fun i hi => by
    rw [val]
    exact hk.float _ (pos i hi).1
  have err : ∀ i, InInterval v i → |(weight float32 k rate p i).getD 0 - K ((i - value p) * t)| ≤ E := by
    intro i hi
    have h1 := hk.error _ (pos i hi).1
    have h2 := hK.lipschitz ((weight float32 id rate p i).getD 0) ((i - value p) * t)
    have h3 := (pos i hi).2
    have h4 := abs_add_le ((weight float32 k rate p i).getD 0 - K ((weight float32 id rate p i).getD 0))
      (K ((weight float32 id rate p i).getD 0) - K ((i - value p) * t))
    rw [sub_add_sub_cancel] at h4
    rw [← val] at h1
    refine h4.trans ?_
    rw [hE]
    linarith
  have zero : ∀ i, InInterval v i → 202 / 100 < |(i - value p) * t| →
      (weight float32 k rate p i).getD 0 = 0 ∧ K ((i - value p) * t) = 0 := by
    intro i hi h
    refine ⟨?_, hK.far _ (by linarith)⟩
    rw [val, hk.far _ (pos i hi).1]
    · rfl
    · have h3 := (pos i hi).2
      have h4 := abs_add_le ((i - value p) * t - (weight float32 id rate p i).getD 0) ((weight float32 id rate p i).getD 0)
      rw [sub_add_cancel, abs_sub_comm] at h4
      linarith
  have close : ∀ i j : Int, |(i - value p) * t| ≤ 202 / 100 → |(j - value p) * t| ≤ 202 / 100 → j - i < N := by
    intro i j hi hj
    have h1 := (abs_le.1 hi).1
    have h2 := (abs_le.1 hj).2
    have h3 : ((j : ℚ) - i) * t < N * t := by linarith
    have h4 := lt_of_mul_lt_mul_right h3 t0.le
    exact_mod_cast h4
  -- the pixels near the position
  set S := (spanOf v).filter fun i : Int => |(i - value p) * t| ≤ 202 / 100 with hS
  have hSv : S ⊆ spanOf v := Finset.filter_subset _ _
  have out : ∀ i ∈ spanOf v, i ∉ S → (weight float32 k rate p i).getD 0 = 0 ∧ K ((i - value p) * t) = 0 := by
    intro i hi hn
    refine zero i (Finset.mem_Ico.1 hi) ?_
    by_contra h
    exact hn (Finset.mem_filter.2 ⟨hi, not_lt.1 h⟩)
  have hcard : (S.card : ℚ) ≤ N := by
    have := card_close S N fun i hi j hj => close i j (Finset.mem_filter.1 hi).2 (Finset.mem_filter.1 hj).2
    exact_mod_cast this
  have diff : ∑ i ∈ spanOf v, |(weight float32 k rate p i).getD 0 - K ((i - value p) * t)| ≤ N * E := by
    rw [← Finset.sum_subset hSv fun i hi hn => by rw [(out i hi hn).1, (out i hi hn).2, sub_zero, abs_zero]]
    refine (Finset.sum_le_card_nsmul S _ E fun i hi => err i (Finset.mem_Ico.1 (hSv hi))).trans ?_
    rw [nsmul_eq_mul]
    exact mul_le_mul_of_nonneg_right hcard E0
  have total : ∑ i ∈ spanOf v, |(weight float32 k rate p i).getD 0| ≤ 2 * N := by
    rw [← Finset.sum_subset hSv fun i hi hn => by rw [(out i hi hn).1, abs_zero]]
    refine (Finset.sum_le_card_nsmul S _ 2 fun i hi => ?_).trans ?_
    · have h1 := err i (Finset.mem_Ico.1 (hSv hi))
      have h2 := hK.bound ((i - value p) * t)
      have h3 := abs_add_le ((weight float32 k rate p i).getD 0 - K ((i - value p) * t)) (K ((i - value p) * t))
      rw [sub_add_cancel] at h3
      have : E ≤ 1 := by nlinarith
      linarith
    · rw [nsmul_eq_mul]
      linarith
  have wsum : 1 / 8 ≤ weightSum (fun x => x.getD 0) v (weight float32 k rate p) := by
    unfold weightSum
    have h1 := Finset.abs_sum_le_sum_abs (fun i : Int => (weight float32 k rate p i).getD 0 - K ((i - value p) * t)) (spanOf v)
    rw [Finset.sum_sub_distrib] at h1
    have h2 := (abs_le.1 (h1.trans (diff.trans hNE))).1
    linarith
  -- the condition
  set W := weightSum (fun x => x.getD 0) v (weight float32 k rate p) with hW
  have hcond : condition (fun x => x.getD 0) v (weight float32 k rate p) ≤ 16 * N := by
    unfold condition
    rw [← hW, abs_of_pos (by linarith), div_le_iff₀ (by linarith)]
    refine total.trans ?_
    nlinarith
  have c0 := Spec.GoodWeights.condition_nonneg (val := fun x : Option ℚ => x.getD 0) v (weight float32 k rate p)
  have hN2' : (N : ℚ) ≤ 500 := by exact_mod_cast hN2
  have hpow : (1 + (2 : ℚ)⁻¹ ^ 24) ^ N ≤ 1 + 2 * N * (1 / 2 ^ 24) := by
    have h1 := pow_mul_le_one (u := (2 : ℚ)⁻¹ ^ 24) (by positivity) N
    have hu : (2 : ℚ)⁻¹ ^ 24 = 1 / 2 ^ 24 := by norm_num
    rw [hu] at h1 ⊢
    have h2 : 0 < 1 - (N : ℚ) * (1 / 2 ^ 24) := by linarith
    rw [← le_div_iff₀ h2] at h1
    refine h1.trans ?_
    rw [div_le_iff₀ h2]
    nlinarith
  have hpow1 : (1 : ℚ) ≤ (1 + (2 : ℚ)⁻¹ ^ 24) ^ N := one_le_pow₀ (by norm_num)
  have hsE : sumError ((2 : ℚ)⁻¹ ^ 24) N (condition (fun x => x.getD 0) v (weight float32 k rate p)) ≤ 1 / 2 := by
    unfold sumError
    have h1 : (1 + (2 : ℚ)⁻¹ ^ 24) ^ N - 1 ≤ 2 * N * (1 / 2 ^ 24) := by linarith
    refine (mul_le_mul h1 hcond c0 (by positivity)).trans ?_
    have : (N : ℚ) * N ≤ 500 * 500 := by nlinarith
    linarith
  refine ⟨?_, diff, wsum, hcond, hsE⟩
  refine ⟨fin, fun i j hi hj h1 h2 => ?_, by rw [← hW]; linarith, by linarith, ?_, ?_⟩
  · refine close i j ?_ ?_
    · by_contra h
      exact h1 (zero i hi (not_le.1 h)).1
    · by_contra h
      exact h2 (zero j hj (not_le.1 h)).1
  · have h0 : 0 ≤ ∑ i ∈ spanOf v, |(weight float32 k rate p i).getD 0| := Finset.sum_nonneg fun _ _ => abs_nonneg _
    have : (1 + (2 : ℚ)⁻¹ ^ 24) ^ N ≤ 2 := by linarith
    refine (mul_le_mul this total h0 (by norm_num)).trans ?_
    linarith
  · rw [div_le_iff₀ (by linarith)]
    have : 2 ^ 67 * (1 / 2) ≤ largestFloat * (1 - sumError ((2 : ℚ)⁻¹ ^ 24) N (condition (fun x => x.getD 0) v (weight float32 k rate p))) :=
      mul_le_mul hΩ (by linarith) (by norm_num) (by linarith)
    linarith

/-- A stage does not overflow. -/
theorem stage_le {N : Nat} {c y : ℚ} (hN : N ≤ 500) (hc0 : 0 ≤ c) (hc : c ≤ 16 * N) (hs : sumError ((2 : ℚ)⁻¹ ^ 24) N c ≤ 1 / 2)
    (hy : 0 ≤ y) : stageBound ((2 : ℚ)⁻¹ ^ 24) ((2 : ℚ) ^ (-150 : Int)) N c y ≤ 2 ^ 17 * (y + 1) := by
  have hN' : (N : ℚ) ≤ 500 := by exact_mod_cast hN
  have hη : (2 : ℚ) ^ (-150 : Int) ≤ 1 / 1000 := by norm_num
  have hη0 := (two_zpow_pos (-150)).le
  have hpow : (1 + (2 : ℚ)⁻¹ ^ 24) ^ N ≤ 2 := by
    have h1 := pow_mul_le_one (u := (2 : ℚ)⁻¹ ^ 24) (by positivity) N
    have hu : (2 : ℚ)⁻¹ ^ 24 = 1 / 2 ^ 24 := by norm_num
    rw [hu] at h1 ⊢
    have h2 : 1 / 2 ≤ 1 - (N : ℚ) * (1 / 2 ^ 24) := by linarith
    have h3 : 0 ≤ (1 + (1 : ℚ) / 2 ^ 24) ^ N := by positivity
    nlinarith
  have hτ : tapError ((2 : ℚ)⁻¹ ^ 24) N c ≤ 2 := by
    unfold tapError
    rw [div_le_iff₀ (by linarith)]
    have hu : (2 : ℚ)⁻¹ ^ 24 ≤ 1 / 4 := by norm_num
    linarith
  have hτ0 := tapError_nonneg (u := (2 : ℚ)⁻¹ ^ 24) (n := N) (by positivity) hc0 (by linarith)
  unfold stageBound
  set η := (2 : ℚ) ^ (-150 : Int)
  set τ := tapError ((2 : ℚ)⁻¹ ^ 24) N c
  have hNη : N * η ≤ 1 := (mul_le_mul hN' hη hη0 (by norm_num)).trans (by norm_num)
  have hNη0 : 0 ≤ N * η := by positivity
  have h1 : (1 + τ) * c + N * η ≤ 3 * 8000 + 1 := by
    have := mul_le_mul (by linarith : 1 + τ ≤ 3) (by linarith : c ≤ 8000) hc0 (by norm_num)
    linarith
  have h2 : (1 + (2 : ℚ)⁻¹ ^ 24) * y ≤ 2 * y := mul_le_mul_of_nonneg_right (by norm_num) hy
  have h3 : (1 + (2 : ℚ)⁻¹ ^ 24) * y * ((1 + τ) * c + N * η) ≤ 2 * y * (3 * 8000 + 1) :=
    mul_le_mul h2 h1 (by positivity) (by positivity)
  have h4 : 0 ≤ (1 + (2 : ℚ)⁻¹ ^ 24) * y * ((1 + τ) * c + N * η) + N * η := by positivity
  refine (mul_le_mul hpow le_rfl h4 (by norm_num)).trans ?_
  linarith

end Nda
