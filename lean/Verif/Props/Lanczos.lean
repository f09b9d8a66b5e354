import Verif.Props.KernelsBuild
import Verif.Lemmas.LanczosSums
/-
C62: resampling with the Lanczos kernel, in exact arithmetic.
-/
namespace Nda
open Spec Kernel

/-- C62: the Lanczos kernel, with any number of side lobes, also has a positive sum at every output pixel in
the image of the input (the assertion of resample.h:146), however large or small the rate, although it has
negative lobes and parts of it may lie outside the input. -/
theorem C62_lanczos_sum_positive (L : Int) (hL : 1 ≤ L) (in_ out : Interval)
    (rate : Rational) (_ : Canonical rate) (hp : 0 < value rate) (hm : MapsInto in_ out (value rate)) (x : Int)
    (hx : InInterval out x) (p : Rational) (hv : value p = ((x : ℚ) + 1 / 2) / value rate - 1 / 2) :
    0 < ∑ i ∈ Finset.Ico in_.min (in_.min + in_.extent), weight (fieldOps ℝ) (fun s => lanczos s L) rate p i := by
  obtain ⟨i1, i2, hpos, t, t0, t1, hw⟩ := nearest_pixel (fun s => lanczos s L) in_ out rate hp hm x hx p hv
  rw [Finset.sum_congr rfl fun i _ => hw i]
  exact lanczos_sum_pos hL t0 t1 i1 i2 hpos

/-- C62: `build_kernels` with the Lanczos kernel: both assertions hold for every output pixel in the image of
the input, and the stored values, which lie in the input, add up to one. -/
theorem C62_lanczos_build (L : Int) (hL : 1 ≤ L) (in_ out : Interval) (rate : Rational)
    (hr : Canonical rate) (hp : 0 < value rate) (hm : MapsInto in_ out (value rate)) (hout : 0 ≤ out.extent)
    (hx : ∀ x, InInterval out x → |x| < 2 ^ 29) (hn : rate.n.toInt < 2 ^ 29) (hd : rate.d.toInt < 2 ^ 29) :
    (∃ ks, buildKernels (fieldOps ℝ) in_ out rate (fun s => lanczos s L) = some ks ∧ ks.dom = out ∧
      ∀ x, InInterval out x →
      (∀ i, InInterval (ks.data x).dom i → InInterval in_ i) ∧
      ∑ i ∈ Finset.Ico (ks.data x).dom.min ((ks.data x).dom.min + (ks.data x).dom.extent), (ks.data x).data i = 1) ∧
    ∀ (buffer : Dense1 ℝ), buffer.dom = in_ → ∀ x, InInterval out x →
      ∃ st, kernelScan (fieldOps ℝ) (fun s => lanczos s L) in_ rate
          ((fieldOps ℝ).min (rate.toFloat (fieldOps ℝ)) (fieldOps ℝ).one) buffer x = some st ∧
        cropKernelAssert st = true ∧ 0 < st.sum := by
  refine build_of_positive _ in_ out rate hout fun x h => ?_
  obtain ⟨p, e, _, v⟩ := C46_position x rate hr hp (hx x h) hn hd
  exact ⟨p, e, C62_lanczos_sum_positive L hL in_ out rate hr hp hm x h p v⟩

/-! ### Concrete cases -/

/- Half a pixel to the left of the first pixel: only the values at 1/2, 3/2 and 5/2 are added, one of which is
negative. -/
example : 0 < ∑ n ∈ Finset.Ico (0 : ℤ) 3, lanczos (((n : ℝ) - (-1 / 2)) * 1) 4 :=
  lanczos_sum_pos (by norm_num) one_pos le_rfl (i0 := 0) le_rfl (by norm_num)
    (by rw [Int.cast_zero, abs_le]; constructor <;> norm_num)

/- Enlarging 7 pixels to 30 and reducing 30 pixels to 7. -/
example : MapsInto ⟨0, 7⟩ ⟨0, 30⟩ (30 / 7) ∧ MapsInto ⟨0, 30⟩ ⟨0, 7⟩ (7 / 30) :=
  ⟨⟨by norm_num, by norm_num⟩, ⟨by norm_num, by norm_num⟩⟩

/- Some values are negative: between the first and the second zero. -/
example (s : ℝ) (h1 : 1 < s) (h2 : s < 2) : lanczos s 4 < 0 := by
  have hpi := Real.pi_gt_three
  unfold lanczos
  rw [if_pos (by rw [abs_of_pos (by linarith)]; norm_num; linarith)]
  refine mul_neg_of_neg_of_pos ?_ (sinc_pos ?_)
  · unfold Kernel.sinc
    dsimp only
    rw [if_pos (by rw [abs_of_pos (by nlinarith)]; nlinarith)]
    refine div_neg_of_neg_of_pos ?_ (by nlinarith)
    have := Real.sin_neg_of_neg_of_neg_pi_lt (x := s * Real.pi - 2 * Real.pi) (by nlinarith) (by nlinarith)
    rwa [Real.sin_sub_two_pi] at this
  · rw [abs_of_pos (by norm_num; linarith)]
    norm_num
    linarith

end Nda
