import Verif.Spec.ResampleProgram
/-
Specification vocabulary for images that are related to each other (C101).
-/
namespace Nda.Spec

/-- The components of an image are in the range from `lo` to `hi`. -/
def ComponentsIn (lo hi cache w h : Int) (pixels : Mem Int) : Prop :=
  ∀ x y c, IsComponent w h x y c → lo ≤ pixels (componentAddress cache w x y c) ∧ pixels (componentAddress cache w x y c) ≤ hi

/-- The second image is the first with its columns in reverse order. -/
def MirroredColumns (cache w h : Int) (p1 p2 : Mem Int) : Prop :=
  ∀ x y c, IsComponent w h x y c → p2 (componentAddress cache w (w - 1 - x) y c) = p1 (componentAddress cache w x y c)

/-- The second image is the first with its rows in reverse order. -/
def MirroredRows (cache w h : Int) (p1 p2 : Mem Int) : Prop :=
  ∀ x y c, IsComponent w h x y c → p2 (componentAddress cache w x (h - 1 - y) c) = p1 (componentAddress cache w x y c)

/-- The second image, of size `h` by `w`, is the first with rows and columns exchanged. -/
def Transposed (cache w h : Int) (p1 p2 : Mem Int) : Prop :=
  ∀ x y c, IsComponent w h x y c → p2 (componentAddress cache h y x c) = p1 (componentAddress cache w x y c)

/-- No component of the first image is greater than that of the second. -/
def ComponentsLe (cache w h : Int) (p1 p2 : Mem Int) : Prop :=
  ∀ x y c, IsComponent w h x y c → p1 (componentAddress cache w x y c) ≤ p2 (componentAddress cache w x y c)

/-- Component `c` of the images is the same where a column is within `rx` of `px` and a row within `ry` of `py`. -/
def SameNear (cache w h : Int) (px rx py ry : ℚ) (c : Int) (p1 p2 : Mem Int) : Prop :=
  ∀ i j, IsComponent w h i j c → |i - px| ≤ rx → |j - py| ≤ ry →
    p1 (componentAddress cache w i j c) = p2 (componentAddress cache w i j c)

end Nda.Spec
