import Verif.Model.ResampleProgram
import Verif.Spec.RoundingResample
import Mathlib.Data.Rat.Floor
/-
Specification vocabulary for the program that resizes images (C85). Nothing here is about the code, except the
signatures of its arithmetic.
-/
namespace Nda.Spec

/-- `(x, y)` is a pixel of an image of size `w` by `h`, and `c` one of its four components. -/
def IsComponent (w h x y c : Int) : Prop := (0 ≤ x ∧ x < w) ∧ (0 ≤ y ∧ y < h) ∧ 0 ≤ c ∧ c < 4

/-- The address of component `c` of pixel `(x, y)` of an image with rows of `w` pixels. -/
def componentAddress (cache w x y c : Int) : Int := cache + (y * w + x) * 4 + c

/-- The position, in an image of `n` pixels, of the centre of pixel `x` of an image of `newN` pixels of the same size. -/
def samplePosition (n newN x : Int) : ℚ := ((x : ℚ) + 1 / 2) * n / newN - 1 / 2

/-- The value of the kernel at pixel `i`. It is stretched if the new image has fewer pixels. -/
def sampleWeight (k : ℚ → ℚ) (n newN x i : Int) : ℚ := k ((i - samplePosition n newN x) * min ((newN : ℚ) / n) 1)

/-- The weighted mean that is the value of pixel `(x, y)` of the new image. -/
def resizedValue (k : ℚ → ℚ) (w h newW newH : Int) (img : Int → Int → ℚ) (x y : Int) : ℚ :=
  (∑ i ∈ spanOf ⟨0, w⟩, ∑ j ∈ spanOf ⟨0, h⟩, sampleWeight k w newW x i * sampleWeight k h newH y j * img i j) /
    ((∑ i ∈ spanOf ⟨0, w⟩, sampleWeight k w newW x i) * ∑ j ∈ spanOf ⟨0, h⟩, sampleWeight k h newH y j)

/-- The weighted mean of an image whose weights are the products of those of the columns and of the rows. -/
def weightedMean {F : Type} (val : F → ℚ) (w h : Int) (wx wy : Int → F) (img : Int → Int → ℚ) : ℚ :=
  (∑ i ∈ spanOf ⟨0, w⟩, ∑ j ∈ spanOf ⟨0, h⟩, val (wx i) * val (wy j) * img i j) /
    (weightSum val ⟨0, w⟩ wx * weightSum val ⟨0, h⟩ wy)

/-- The value limited to the range from 0 to `top`. -/
def limited (top : Int) (v : ℚ) : ℚ := max 0 (min v top)

/-- Exact arithmetic with components from 0 to `top`. -/
def exactQuantum (top : Int) : QuantumOps ℚ where
  ofQuantum v := v
  toQuantum v := if -1 < v ∧ v < top + 1 then some (if 0 ≤ v then ⌊v⌋ else ⌈v⌉) else none
  maxQuantum := top
  lt a b := decide (a < b)

/-- Conversions between `float` and a type of components all of whose values are `float`s. -/
structure ConvertsQuantum {F : Type} (q : QuantumOps F) (Finite : F → Prop) (val : F → ℚ) : Prop where
  top : 0 ≤ q.maxQuantum
  ofQuantum : ∀ v, 0 ≤ v → v ≤ q.maxQuantum → Finite (q.ofQuantum v) ∧ val (q.ofQuantum v) = v
  lt : ∀ a b, Finite a → Finite b → (q.lt a b = true ↔ val a < val b)
  toQuantum : ∀ a, Finite a → 0 ≤ val a → val a < q.maxQuantum + 1 → q.toQuantum a = some ⌊val a⌋

/-- Conversions between binary32 and unsigned integers up to `top`. -/
def floatQuantum (top : Int) : QuantumOps (Option ℚ) where
  ofQuantum v := float32.ofIndex v
  toQuantum
    | some v => (exactQuantum top).toQuantum v
    | none => none
  maxQuantum := top
  lt
    | some a, some b => decide (a < b)
    | _, _ => false

end Nda.Spec
