import Verif.Model.Core
import Mathlib.Algebra.Order.Group.Abs
import Mathlib.Algebra.Order.Ring.Int
/-
Specification vocabulary for automatic strides (C04–C07).
-/
namespace Nda.Spec

/-- The stride has been given (it is not the placeholder `unresolved`, array.h:101-103). -/
def Known (d : Dim) : Prop := d.stride ≠ -9223372036854775808

/-- Number of flat elements covered by stepping through the whole dim. -/
def span (d : Dim) : Int := d.extent * |d.stride|

/-- One of the dims steps over the other completely, so they do not interleave. -/
def Nested (a b : Dim) : Prop := span a ≤ |b.stride| ∨ span b ≤ |a.stride|

/-- Known dims with more than one index move when stepped. -/
def Moving (d : Dim) : Prop := 1 < d.extent → d.stride ≠ 0

/-- There is room in `index_t`: some `B ≥ 1` bounds the spans of the known dims, and multiplying it by
the extents of the unknown dims stays below the largest `index_t`. -/
def FitsIndex (s : List Dim) : Prop :=
  ∃ B : Int, 1 ≤ B ∧ (∀ d ∈ s, Known d → span d ≤ B) ∧
    B * ((s.filter fun d => d.stride == -9223372036854775808).map fun d => max 1 d.extent).prod
      < 9223372036854775807

/-- A proposed stride `c` for a dim of extent `e` does not interleave with the known dim `d`
(and, as documented at array.h:848-855, a dim of extent 1 does not repeat the stride of a
longer dim). -/
def Admissible (c e : Int) (d : Dim) : Prop :=
  (span d ≤ c ∨ e * c ≤ |d.stride|) ∧ ¬ (e = 1 ∧ c = |d.stride| ∧ 1 < d.extent)

/-- Same dims with the same strides wherever they were known. -/
def RefinesStrides (s t : List Dim) : Prop :=
  List.Forall₂ (fun a b : Dim => b.min = a.min ∧ b.extent = a.extent ∧ (Known a → b.stride = a.stride)) s t

end Nda.Spec
