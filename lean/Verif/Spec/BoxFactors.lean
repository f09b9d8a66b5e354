import Verif.Spec.BoxFloat
/-
Rows of pixels whose number of pixels changes by a whole factor.
-/
namespace Nda.Spec

/-- The factor by which the number of pixels of a row changes. -/
def factorOf (n newN : Int) : Int := max (n / newN) (newN / n)

/-- How many of the `n` pixels of a row belong to one of the `newN` pixels of the new row. -/
def blockLength (n newN : Int) : Int := if newN ≤ n then n / newN else 1

/-- The first of those that belong to pixel `x`. -/
def blockFirst (n newN x : Int) : Int := if newN ≤ n then n / newN * x else x / (newN / n)

/-- Those that belong to pixel `x`. -/
noncomputable def blockOf (n newN x : Int) : Finset Int := Finset.Ico (blockFirst n newN x) (blockFirst n newN x + blockLength n newN)

/-- The average of the pixels of an image that belong to pixel `(x, y)` of the new image, without its fraction. -/
noncomputable def blockAverage (w h newW newH : Int) (img : Int → Int → Int) (x y : Int) : Int :=
  (∑ i ∈ blockOf w newW x, ∑ j ∈ blockOf h newH y, img i j) / (blockLength w newW * blockLength h newH)

end Nda.Spec
