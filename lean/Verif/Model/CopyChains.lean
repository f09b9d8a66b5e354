import Verif.Model.Algorithms
/-
Programs that copy an array through other arrays (`copy`, array.h:2763-2772).
-/
namespace Nda
variable {α : Type}

/-- `copy(a, b); copy(b, c); …` (array.h:2763-2772) for arrays of the same element type. -/
def copyAlong : List ArrayRef → Mem α → Mem α
  | a :: b :: l, m => copyAlong (b :: l) (copy id a b m)
  | _, m => m

/-- `copy(a, t); copy(b, a); copy(t, b)`: exchanges two arrays of the same indices through a third one. -/
def exchange (a b t : ArrayRef) (m : Mem α) : Mem α := copy id t b (copy id b a (copy id a t m))

end Nda
