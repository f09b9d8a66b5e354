import Verif.Model.Static
/-
Model of `interval` with its template parameters, of the comparison operators of `interval`, `dim` and
`shape`, and of `index_iterator`.
-/
namespace Nda

/-! ### index_iterator (array.h:183-228) -/

/-- array.h:184 `index_iterator::i_`; 188 the constructor. -/
structure IndexIterator where
  i : Int
deriving DecidableEq, Repr, Inhabited

namespace IndexIterator

/-- array.h:191 `operator*`. -/
def deref (a : IndexIterator) : Int := a.i
/-- array.h:193-195 `operator==`. -/
def eq (a r : IndexIterator) : Bool := a.i == r.i
/-- array.h:196-198 `operator!=`. -/
def ne (a r : IndexIterator) : Bool := a.i != r.i
/-- array.h:200 `operator++(int)`: the result, and the iterator afterwards. -/
def postInc (a : IndexIterator) : IndexIterator × IndexIterator := (⟨a.i⟩, ⟨a.i + 1⟩)
/-- array.h:201 `operator--(int)`. -/
def postDec (a : IndexIterator) : IndexIterator × IndexIterator := (⟨a.i⟩, ⟨a.i - 1⟩)
/-- array.h:202-205 `operator++()`: the iterator afterwards, to which the result refers. -/
def inc (a : IndexIterator) : IndexIterator := ⟨a.i + 1⟩
/-- array.h:206-209 `operator--()`. -/
def dec (a : IndexIterator) : IndexIterator := ⟨a.i - 1⟩
/-- array.h:210-213 `operator+=`. -/
def addAssign (a : IndexIterator) (r : Int) : IndexIterator := ⟨a.i + r⟩
/-- array.h:214-217 `operator-=`. -/
def subAssign (a : IndexIterator) (r : Int) : IndexIterator := ⟨a.i - r⟩
/-- array.h:218-220 `operator+`. -/
def add (a : IndexIterator) (r : Int) : IndexIterator := ⟨a.i + r⟩
/-- array.h:221-223 `operator-(index_t)`. -/
def sub (a : IndexIterator) (r : Int) : IndexIterator := ⟨a.i - r⟩
/-- array.h:224-226 `operator-(const index_iterator&)`. -/
def diff (a r : IndexIterator) : Int := a.i - r.i
/-- array.h:227 `operator[]`. -/
def at_ (a : IndexIterator) (n : Int) : Int := a.i + n

end IndexIterator

/-! ### interval -/

/-- Template parameters of `interval<Min, Extent>` (array.h:246-247, 254-255). -/
structure IntervalT where
  min : Int
  extent : Int
deriving DecidableEq, Repr, Inhabited

namespace IntervalT

/-- array.h:256 `interval::Max`. -/
def Max (t : IntervalT) : Int := staticSub (staticAdd t.min t.extent) 1

/-- array.h:265 `interval(min, extent)`. -/
def make (t : IntervalT) (min extent : Int) : Interval := ⟨ciInit t.min min, ciInit t.extent extent⟩

def makeAssert (t : IntervalT) (min extent : Int) : Bool := ciAssert t.min min && ciAssert t.extent extent

/-- array.h:266-267 `interval(min)`. -/
def ofMin (t : IntervalT) (min : Int) : Interval := make t min (if isStatic t.extent then t.extent else 1)

def ofMinAssert (t : IntervalT) (min : Int) : Bool := makeAssert t min (if isStatic t.extent then t.extent else 1)

/-- array.h:268 `interval()`. -/
def default_ (t : IntervalT) : Interval := ofMin t (if isStatic t.min then t.min else 0)

def defaultAssert (t : IntervalT) : Bool := ofMinAssert t (if isStatic t.min then t.min else 0)

/-- array.h:278-280, 283-285: the overloads exist only if no pair of static parameters differs. -/
def canConvert (t u : IntervalT) : Bool := !notEqual t.min u.min && !notEqual t.extent u.extent

/-- array.h:281-282: constructing an `interval<t>` from an interval of another type. -/
def convert (t : IntervalT) (src : Interval) : Interval := t.make src.min src.extent

def convertAssert (t : IntervalT) (src : Interval) : Bool := t.makeAssert src.min src.extent

/-- array.h:294 `set_min`. -/
def setMin (t : IntervalT) (v : Interval) (min : Int) : Interval := ⟨ciInit t.min min, v.extent⟩

/-- array.h:298 `set_extent`. -/
def setExtent (t : IntervalT) (v : Interval) (extent : Int) : Interval := ⟨v.min, ciInit t.extent extent⟩

/-- array.h:286-290: assigning an interval of another type. -/
def assign (t : IntervalT) (v src : Interval) : Interval := t.setExtent (t.setMin v src.min) src.extent

/-- array.h:302 `set_max`. -/
def setMax (t : IntervalT) (v : Interval) (max : Int) : Interval := t.setExtent v (max - v.min + 1)

def setMaxAssert (t : IntervalT) (v : Interval) (max : Int) : Bool := ciAssert t.extent (max - v.min + 1)

end IntervalT

namespace Interval

/-- array.h:328-331 `interval::operator==`. -/
def eq (v u : Interval) : Bool := v.min == u.min && v.extent == u.extent
/-- array.h:332-335 `interval::operator!=`. -/
def ne (v u : Interval) : Bool := !(v.eq u)
/-- array.h:297 `interval::size`. -/
def size (v : Interval) : Int := v.extent
/-- array.h:322, 366-369 `begin`. -/
def beginIt (v : Interval) : IndexIterator := ⟨v.min⟩
/-- array.h:324, 370-373 `end`. -/
def endIt (v : Interval) : IndexIterator := ⟨v.max + 1⟩
/-- array.h:382-385 `clamp(x, r)` for an interval. -/
def clampTo (x : Int) (v : Interval) : Int := clamp x v.min v.max

end Interval

/-- array.h:352-359 `range<Extent>(begin)` and `r<Extent>(begin)`, of type `interval<dynamic, Extent>` (340-341). -/
def rangeFixed (extent begin_ : Int) : Interval := IntervalT.ofMin ⟨dynamic, extent⟩ begin_

/-- array.h:487-490 `dim::operator==`. -/
def Dim.eq (d u : Dim) : Bool := d.min == u.min && d.extent == u.extent && d.stride == u.stride
/-- array.h:491-494 `dim::operator!=`. -/
def Dim.ne (d u : Dim) : Bool := !(d.eq u)

/-- `std::tuple::operator==`, for tuples of dims: the elements in turn.  It does not compile for tuples of
different sizes. -/
def dimsEq : List Dim → List Dim → Bool
  | d :: ds, u :: us => d.eq u && dimsEq ds us
  | _, _ => true

namespace Shape

/-- array.h:1312-1315 `shape::operator==`. -/
def eq (s t : Shape) : Bool := dimsEq s t
/-- array.h:1316-1319 `shape::operator!=`. -/
def ne (s t : Shape) : Bool := !(s.eq t)

end Shape
end Nda
