import Verif.Spec.ResampleProgram
/-
Specification vocabulary for the box kernel in floating point (C99).
-/
namespace Nda.Spec

/-- `S` are positions of pixels that are averaged for pixel `x` of the new image: pixels of the image, at least one, among
them each that is within half a pixel (of the larger grid) of the position, less a tolerance of `δ`, and none that is not,
with the same tolerance. -/
structure BoxSamples (n newN x : Int) (δ : ℚ) (S : Finset Int) : Prop where
  range : ∀ i ∈ S, 0 ≤ i ∧ i < n
  nonempty : S.Nonempty
  near : ∀ i : Int, 0 ≤ i → i < n → |(i - samplePosition n newN x) * min ((newN : ℚ) / n) 1| ≤ 1 / 2 - δ → i ∈ S
  far : ∀ i ∈ S, |((i : ℚ) - samplePosition n newN x) * min ((newN : ℚ) / n) 1| ≤ 1 / 2 + δ

/-- The plain average of the pixels with columns in `SX` and rows in `SY`. -/
def average (SX SY : Finset Int) (img : Int → Int → ℚ) : ℚ := (∑ i ∈ SX, ∑ j ∈ SY, img i j) / (SX.card * SY.card)

end Nda.Spec
