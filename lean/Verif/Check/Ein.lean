import Verif.Check.Views
import Verif.Model.Ein
/-
The sums of test/ein_reduce.cpp evaluated on the model, with smaller arrays.  Tests of the model, not proofs.
-/
namespace Nda.Check

/-- The first `n` cells of memory as a table, so that they are not evaluated again for each access. -/
def store (n : Nat) (m : Mem Int) : Array Int := ((List.range n).map fun k : Nat => m k).toArray
def load (t : Array Int) : Mem Int := fun p => t.getD p.toNat 0

/-- `ein_reduce` (`Nda.einReduce`), with memory stored in a table after each step. -/
def einRun (f : Int → Int → Int) (lhs : EinOp Int) (rhs : EinExpr Int) (t : Array Int) : Option (Array Int) := do
  let tr ← (einLoopShape lhs rhs).forEachIndex
  tr.foldlM (fun t i => (einStep f lhs rhs (load t) i).map (store t.size)) t

/-- A static vector or matrix (matrix.h:35-52) or a dynamic array at an address. -/
def vec (n base : Int) (is : List Nat) : EinOp Int := ⟨.arr (some base) (fixedDense [n]), is⟩
def mat (m n base : Int) (is : List Nat) : EinOp Int :=
  ⟨.arr (some base) [⟨⟨0, m, n⟩, ⟨0, m, n⟩⟩, ⟨⟨0, n, 1⟩, ⟨0, n, 1⟩⟩], is⟩
def arr3 (a b c base : Int) (is : List Nat) : EinOp Int :=
  ⟨.arr (some base) [objS 0 a 1, objS 0 b a, objS 0 c (a * b)], is⟩

def add (a b : Int) : Int := a + b
def mul (a b : Int) : Int := a * b
def set (_ b : Int) : Int := b

/-- Memory with some numbers at small addresses and 0 from 400 on. -/
def start (init : Int := 0) : Array Int := store 430 fun p => if p < 400 then (p * 37 + p * p) % 23 - 7 else init

/-- The operands at run time. -/
def rd (o : EinOp Int) (l : Index) : Int := match o.op with
  | .arr b d => load start (b.getD 0 + (values d).flatOffset l)
  | .fn f => f l

/-- The contents of the result at 400. -/
def outOf (o : EinOp Int) (m : Option (Array Int)) (l : Index) : Int := match m, o.op with
  | some m, .arr b d => load m (b.getD 0 + (values d).flatOffset l)
  | _, _ => 999999

def upTo (n : Nat) : List Int := (List.range n).map fun k : Nat => (k : Int)

/-! ### diagonal, trace, dot (26-84, 118-137) -/

#guard let A := mat 6 6 0 [0, 0]
  let d := vec 6 400 [0]
  let m := einRun set d (.op A) start
  einAssert d (.op A) ∧ (upTo 6).all fun i => outOf d m [i] == rd A [i, i]
#guard let A := mat 6 6 0 [0, 0]
  let m := einRun add (einScalar 400) (.op A) start
  outOf (einScalar 400) m [] = ((upTo 6).map fun i => rd A [i, i]).sum
#guard let x := vec 9 0 [0]
  let y := vec 9 20 [0]
  let m := einRun add (einScalar 400) (.binary mul (.op x) (.op y)) start
  outOf (einScalar 400) m [] = ((upTo 9).map fun i => rd x [i] * rd y [i]).sum
#guard let x := vec 9 0 [0]
  let y := vec 9 20 [0]
  let z := vec 9 40 [0]
  let m := einRun add (einScalar 400) (.binary mul (.binary add (.op x) (.op y)) (.op z)) start
  outOf (einScalar 400) m [] = ((upTo 9).map fun i => (rd x [i] + rd y [i]) * rd z [i]).sum

/-! ### transpose (86-116) -/

#guard let A := mat 3 5 0 [1, 0]
  let AT := mat 5 3 400 [0, 1]
  let m := einRun set AT (.op A) start
  (upTo 5).all fun i => (upTo 3).all fun j => outOf AT m [i, j] == rd A [j, i]
#guard values (makeEinReduceShape [0, 1] (.op (mat 3 5 0 [1, 0]))) = [⟨0, 5, 1⟩, ⟨0, 3, 5⟩]

/-! ### cross products (139-178) -/

def sgn (i : Int) : Int := if i = 0 then 0 else if i < 0 then -1 else 1

/-- The Levi-Civita tensor of 144-152. -/
def epsilon : Index → Int
  | [] => 1
  | i0 :: is => product (is.map fun i => sgn (i - i0)) * epsilon is

#guard let x := mat 3 4 0 [1, 3]
  let y := mat 3 4 20 [2, 3]
  let cross := mat 3 4 400 [0, 3]
  let e : EinExpr Int := .binary mul (.binary mul (.op ⟨.fn epsilon, [0, 1, 2]⟩) (.op x)) (.op y)
  let m := einRun add cross e start
  einAssert cross e ∧ (upTo 4).all fun l =>
    rd x [1, l] * rd y [2, l] - rd x [2, l] * rd y [1, l] == outOf cross m [0, l] &&
    rd x [2, l] * rd y [0, l] - rd x [0, l] * rd y [2, l] == outOf cross m [1, l] &&
    rd x [0, l] * rd y [1, l] - rd x [1, l] * rd y [0, l] == outOf cross m [2, l]

/-! ### outer product, matrix times vector (180-260) -/

#guard let x := vec 6 0 [0]
  let y := vec 4 20 [1]
  let o := mat 6 4 400 [0, 1]
  let m := einRun set o (.binary mul (.op x) (.op y)) start
  (upTo 6).all fun i => (upTo 4).all fun j => outOf o m [i, j] == rd x [i] * rd y [j]
#guard let B := mat 5 6 0 [0, 1]
  let x := vec 6 50 [1]
  let Bx := vec 5 400 [0]
  let m := einRun add Bx (.binary mul (.op B) (.op x)) start
  (upTo 5).all fun i => outOf Bx m [i] == ((upTo 6).map fun j => rd B [i, j] * rd x [j]).sum

/-! ### sums and maxima of a tensor (262-325) -/

#guard let T := arr3 4 5 8 0 [0, 1, 2]
  let m := einRun (fun a b => a - b) (einScalar 400) (.op T) start
  outOf (einScalar 400) m [] = -((upTo 160).map fun p => load start p).sum
#guard let T := arr3 4 5 8 0 [0, 1, 2]
  let s := vec 5 400 [1]
  let m := einRun add s (.op T) start
  (upTo 5).all fun j => outOf s m [j] ==
    ((upTo 4).flatMap fun i => (upTo 8).map fun k => rd T [i, j, k]).sum
#guard let T := arr3 4 5 8 0 [0, 1, 2]
  let r := einCArray 1 400 5
  let e : EinExpr Int := .binary (fun a b => max a b) (.op r) (.op T)
  let m := einRun set r e (start (-1000))
  einAssert r e ∧ (upTo 5).all fun j => some (outOf r m [j]) ==
    ((upTo 4).flatMap fun i => (upTo 8).map fun k => rd T [i, j, k]).max?

end Nda.Check
