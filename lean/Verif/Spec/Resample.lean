import Verif.Model.Resample
/-
Specification vocabulary for resampling kernels (C46).
-/
namespace Nda.Spec
variable {F : Type}

/-- The indices of an interval. -/
def InInterval (v : Interval) (i : Int) : Prop := v.min ≤ i ∧ i < v.min + v.extent

/-- The kernel value at input position `rx` for an output whose position is `p`; when downsampling
(rate below one) the kernel is stretched by the rate. -/
def weight (o : FloatOps F) (kernel : F → F) (rate p : Rational) (rx : Int) : F :=
  kernel (o.mul (o.sub (o.ofIndex rx) (o.div (o.ofIndex p.n.toInt) (o.ofIndex p.d.toInt)))
    (o.min (o.div (o.ofIndex rate.n.toInt) (o.ofIndex rate.d.toInt)) o.one))

/-- `s` is the sum of the non-zero values of `w` on the interval, added up in ascending order. -/
def AscendingSum (o : FloatOps F) (v : Interval) (w : Int → F) (s : F) : Prop :=
  ∃ l : List Int, l.Pairwise (· < ·) ∧ (∀ i, i ∈ l ↔ InInterval v i ∧ o.nonZero (w i) = true) ∧
    s = l.foldl (fun s i => o.add s (w i)) o.zero

/-- What is stored for output position `x`. -/
def GoodKernel (o : FloatOps F) (in_ : Interval) (w : Int → F) (kx : Dense1 F) : Prop :=
  (∀ i, InInterval kx.dom i → InInterval in_ i) ∧
  InInterval kx.dom kx.dom.min ∧
  o.nonZero (w kx.dom.min) = true ∧ o.nonZero (w (kx.dom.min + kx.dom.extent - 1)) = true ∧
  (∀ i, InInterval in_ i → o.nonZero (w i) = true → InInterval kx.dom i) ∧
  ∃ s, AscendingSum o in_ w s ∧ ∀ i, InInterval kx.dom i → kx.data i = o.div (w i) s

end Nda.Spec
