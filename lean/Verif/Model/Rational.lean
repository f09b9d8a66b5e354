/-
Model of examples/resample/rational.h: Euclidean division and modulus on two's-complement
integers, `gcd`, and class `rational`.

A value of the integer type `T` is a `BitVec w`; every operator of C++ that has undefined behaviour
on signed overflow or division by zero is a checked operation, `none` being undefined behaviour.
(`w` is the width of `T` after integer promotion; `rational<index_t>` has `w = 64`.)
-/
namespace Nda

section
variable {w : Nat}

/-- `a + b` on a signed type. -/
def cadd (a b : BitVec w) : Option (BitVec w) := if a.saddOverflow b then none else some (a + b)
/-- `a - b` on a signed type. -/
def csub (a b : BitVec w) : Option (BitVec w) := if a.ssubOverflow b then none else some (a - b)
/-- `a * b` on a signed type. -/
def cmul (a b : BitVec w) : Option (BitVec w) := if a.smulOverflow b then none else some (a * b)
/-- `a / b` on a signed type: rounds toward zero. -/
def cdiv (a b : BitVec w) : Option (BitVec w) :=
  if b = 0#w ∨ (a = BitVec.intMin w ∧ b = -1#w) then none else some (a.sdiv b)
/-- `a % b` on a signed type: the sign of the result is that of `a`; undefined where `a / b` is. -/
def crem (a b : BitVec w) : Option (BitVec w) :=
  if b = 0#w ∨ (a = BitVec.intMin w ∧ b = -1#w) then none else some (a.srem b)
/-- `std::abs(b)`: undefined if the result is not representable. -/
def cabs (b : BitVec w) : Option (BitVec w) :=
  if b = BitVec.intMin w then none else some (if b.slt 0#w then -b else b)
/-- The sign mask `x >> (sizeof(T) * 8 - 1)` (an arithmetic shift). -/
def signMask (x : BitVec w) : BitVec w := x.sshiftRight (w - 1)

/-- rational.h:21-28 `euclidean_div`. -/
def euclideanDiv (a b : BitVec w) : Option (BitVec w) := do
  let q ← cdiv a b
  let t ← cmul q b
  let r ← csub a t
  let bs := signMask b
  let rs := signMask r
  let u ← csub q (rs &&& bs)
  cadd u (rs &&& ~~~bs)

/-- rational.h:30-35 `euclidean_mod`. -/
def euclideanMod (a b : BitVec w) : Option (BitVec w) := do
  let r ← crem a b
  let sm := signMask r
  let ab ← cabs b
  cadd r (sm &&& ab)

/-- rational.h:37-44 `gcd`.  `none`: undefined behaviour (or a recursion that does not end). -/
def gcdT (a b : BitVec w) : Option (BitVec w) :=
  if b = 0#w then some a
  else do
    let r ← euclideanMod a b
    gcdT b r
partial_fixpoint

end

/-- rational.h:48-57 `rational<index_t>`: numerator and denominator. -/
structure Rational where
  n : BitVec 64
  d : BitVec 64
deriving DecidableEq, Repr

namespace Rational

/-- rational.h:51-55 `reduce()`. -/
def reduce (x : Rational) : Option Rational := do
  let r ← gcdT x.n x.d
  let n ← cdiv x.n r
  let d ← cdiv x.d r
  pure ⟨n, d⟩

/-- rational.h:58 `rational(T x = 0)`. -/
def ofInt (x : BitVec 64) : Rational := ⟨x, 1#64⟩

/-- rational.h:59 `rational(T n, T d)`. -/
def mk2 (n d : BitVec 64) : Option Rational := reduce ⟨n, d⟩

/-- rational.h:64 `operator*`. -/
def mul (l r : Rational) : Option Rational := do
  let n ← cmul l.n r.n
  let d ← cmul l.d r.d
  mk2 n d

/-- rational.h:65 `operator/`. -/
def div (l r : Rational) : Option Rational := do
  let n ← cmul l.n r.d
  let d ← cmul l.d r.n
  mk2 n d

/-- rational.h:66 `operator+`. -/
def add (l r : Rational) : Option Rational := do
  let a ← cmul l.n r.d
  let b ← cmul r.n l.d
  let n ← cadd a b
  let d ← cmul l.d r.d
  mk2 n d

/-- rational.h:67 `operator-`. -/
def sub (l r : Rational) : Option Rational := do
  let a ← cmul l.n r.d
  let b ← cmul r.n l.d
  let n ← csub a b
  let d ← cmul l.d r.d
  mk2 n d

/-- rational.h:69 `operator<`. -/
def lt (l r : Rational) : Option Bool := do
  let a ← cmul l.n r.d
  let b ← cmul r.n l.d
  pure (a.slt b)

/-- rational.h:70 `operator<=`. -/
def le (l r : Rational) : Option Bool := do
  let a ← cmul l.n r.d
  let b ← cmul r.n l.d
  pure (a.sle b)

/-- rational.h:71 `operator>`. -/
def gt (l r : Rational) : Option Bool := do
  let a ← cmul l.n r.d
  let b ← cmul r.n l.d
  pure (b.slt a)

/-- rational.h:72 `operator>=`. -/
def ge (l r : Rational) : Option Bool := do
  let a ← cmul l.n r.d
  let b ← cmul r.n l.d
  pure (b.sle a)

/-- rational.h:73 `operator==`. -/
def eq (l r : Rational) : Option Bool := do
  let a ← cmul l.n r.d
  let b ← cmul r.n l.d
  pure (a == b)

/-- rational.h:74 `operator!=`. -/
def ne (l r : Rational) : Option Bool := do
  let a ← cmul l.n r.d
  let b ← cmul r.n l.d
  pure (a != b)

/-- rational.h:77-80 `operator*(T, rational)`. -/
def scalarMul (l : BitVec 64) (r : Rational) : Option Rational := (ofInt l).mul r
/-- rational.h:81-84 `operator/(T, rational)`. -/
def scalarDiv (l : BitVec 64) (r : Rational) : Option Rational := (ofInt l).div r
/-- rational.h:85-88 `operator-(T, rational)`. -/
def scalarSub (l : BitVec 64) (r : Rational) : Option Rational := (ofInt l).sub r
/-- rational.h:89-92 `operator+(T, rational)`. -/
def scalarAdd (l : BitVec 64) (r : Rational) : Option Rational := (ofInt l).add r

/-- rational.h:94-97 `min`. -/
def min (l r : Rational) : Option Rational := do
  let b ← l.lt r
  pure (if b then l else r)

/-- rational.h:98-101 `max`. -/
def max (l r : Rational) : Option Rational := do
  let b ← l.gt r
  pure (if b then l else r)

/-- rational.h:103-106 `floor`. -/
def floor (r : Rational) : Option (BitVec 64) := euclideanDiv r.n r.d

/-- rational.h:107-110 `round`. -/
def round (r : Rational) : Option (BitVec 64) := do
  let a ← cmul 2#64 r.n
  let a ← cadd a r.d
  let b ← cmul 2#64 r.d
  euclideanDiv a b

/-- rational.h:111-114 `ceil`. -/
def ceil (r : Rational) : Option (BitVec 64) := do
  let a ← cadd r.n r.d
  let a ← csub a 1#64
  euclideanDiv a r.d

/-- rational.h:115-118 `frac`. -/
def frac (r : Rational) : Option Rational := do
  let a ← euclideanMod r.n r.d
  mk2 a r.d

end Rational
end Nda
