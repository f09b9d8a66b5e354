/-
The index arithmetic of include/array/array.h on 64-bit `index_t` (array.h:87 `std::ptrdiff_t`; the build option NDARRAY_INT_INDICES makes it `int`, array.h:83-84), with
signed overflow as an undefined outcome (`none`).  The functions are those of Model/Core.lean, which
computes with unbounded integers; Props/Checked.lean relates the two.

Simplification: the sums inside `internal::all` (array.h:708-711) add up at most rank many ones and are
not evaluated with overflow checks.
-/
import Verif.Model.Core
import Verif.Model.Rational

namespace Nda

/-- `index_t`. -/
abbrev I64 := BitVec 64

/-- array.h:112 `internal::abs`. -/
def abs64 (x : I64) : Option I64 := if (0#64).sle x then some x else csub 0#64 x
/-- array.h:175-178 `internal::min`. -/
def min64 (a b : I64) : I64 := if b.slt a then b else a
/-- array.h:170-173 `internal::max`. -/
def max64 (a b : I64) : I64 := if a.slt b then b else a

/-- Run-time content of `dim<Min, Extent, Stride>` (array.h:247-251, 395-406). -/
structure Dim64 where
  min : I64
  extent : I64
  stride : I64
  deriving DecidableEq, Repr

/-- The integers that a 64-bit dim holds. -/
def Dim64.toDim (d : Dim64) : Dim := ⟨d.min.toInt, d.extent.toInt, d.stride.toInt⟩

namespace Dim64

/-- array.h:301 `interval::max`. -/
def max (d : Dim64) : Option I64 := do
  let t ← cadd d.min d.extent
  csub t 1#64

/-- array.h:305-307 `interval::is_in_range`; `&&` does not evaluate `max()` if `at < min`. -/
def isInRange (d : Dim64) (at_ : I64) : Option Bool :=
  if d.min.sle at_ then do
    let m ← d.max
    some (at_.sle m)
  else some false

/-- array.h:324 `interval::end`. -/
def end_ (d : Dim64) : Option I64 := do
  let m ← d.max
  cadd m 1#64

/-- array.h:481-483 `dim::flat_offset`. -/
def flatOffset (d : Dim64) (at_ : I64) : Option I64 := do
  let t ← csub at_ d.min
  cmul t d.stride

end Dim64

/-- array.h:674-681 `internal::sum`; `+` associates to the left. -/
def sum64 : List I64 → Option I64
  | [] => some 0#64
  | [x0] => some x0
  | [x0, x1] => cadd x0 x1
  | [x0, x1, x2] => do
    let a ← cadd x0 x1
    cadd a x2
  | x0 :: x1 :: x2 :: x3 :: rest => do
    let a ← cadd x0 x1
    let b ← cadd a x2
    let c ← cadd b x3
    let r ← sum64 rest
    cadd c r

/-- array.h:683-687 `internal::product`. -/
def product64 : List I64 → Option I64
  | [] => some 1#64
  | x :: rest => do
    let r ← product64 rest
    cmul x r

abbrev Shape64 := List Dim64

namespace Shape64

/-- array.h:718-722, 1179-1185 `shape::operator[]`, `internal::flat_offset`. -/
def flatOffset (s : Shape64) (i : List I64) : Option I64 := do
  let xs ← (List.zipWith Dim64.flatOffset s i).mapM id
  sum64 xs

/-- array.h:725-728, 1231 `shape::flat_min`. -/
def flatMin (s : Shape64) : Option I64 := do
  let xs ← List.mapM (fun d : Dim64 => do
    let t ← csub d.extent 1#64
    cmul t (min64 0#64 d.stride)) s
  sum64 xs

/-- array.h:730-734, 1232 `shape::flat_max`. -/
def flatMax (s : Shape64) : Option I64 := do
  let xs ← List.mapM (fun d : Dim64 => do
    let t ← csub d.extent 1#64
    cmul t (max64 0#64 d.stride)) s
  sum64 xs

/-- array.h:1233-1236 `shape::flat_extent`. -/
def flatExtent (s : Shape64) : Option Nat := do
  let a ← flatMax s
  let b ← flatMin s
  let t ← csub a b
  let e ← cadd t 1#64
  some (if e.slt 0#64 then 0 else e.toNat)

/-- array.h:702-705, 1239-1242 `shape::size`. -/
def size (s : Shape64) : Option Nat := do
  let p ← product64 (List.map Dim64.extent s)
  some (if p.slt 0#64 then 0 else p.toNat)

/-- array.h:783-787, 1169-1176 `shape::is_in_range`. -/
def isInRange (s : Shape64) (i : List I64) : Option Bool := do
  let bs ← (List.zipWith Dim64.isInRange s i).mapM id
  some (Nda.all bs)

end Shape64

/-! ### Automatic strides, array.h:836-918 -/

/-- array.h:103, 118 `internal::is_unresolved`. -/
def isUnresolved64 (x : I64) : Bool := x == BitVec.intMin 64

/-- `std::numeric_limits<index_t>::max()`. -/
def indexMax64 : I64 := BitVec.intMax 64

/-- array.h:847 the condition `extent == 1 && abs(stride) == abs(dim.stride()) && dim.extent() > 1`. -/
def repeatsStride64 (stride extent : I64) (d : Dim64) : Option Bool :=
  if extent = 1#64 then do
    let a ← abs64 stride
    let b ← abs64 d.stride
    some (decide (a = b) && (1#64).slt d.extent)
  else some false

/-- array.h:856-866 the two tests at the end of `internal::is_stride_ok`. -/
def separate64 (stride extent : I64) (d : Dim64) : Option Bool := do
  let a ← abs64 d.stride
  let t ← cmul d.extent a
  if t.sle stride then some true
  else do
    let fe ← cmul extent stride
    let b ← abs64 d.stride
    some (fe.sle b)

/-- array.h:841-867 `internal::is_stride_ok`. -/
def isStrideOk64 (stride extent : I64) (d : Dim64) : Option Bool :=
  if isUnresolved64 d.stride then some true
  else do
    let r ← repeatsStride64 stride extent d
    if r then some false else separate64 stride extent d

/-- array.h:871-878 `internal::filter_stride`. -/
def filterStride64 (stride extent : I64) (dims : List Dim64) : Option I64 := do
  let bs ← dims.mapM (isStrideOk64 stride extent)
  some (if all bs then stride else indexMax64)

/-- array.h:882-889 `internal::candidate_stride`. -/
def candidateStride64 (d : Dim64) : Option I64 :=
  if isUnresolved64 d.stride then some indexMax64
  else do
    let a ← abs64 d.stride
    let t ← cmul a d.extent
    some (max64 1#64 t)

/-- array.h:689-693 `internal::variadic_min`. -/
def variadicMin64 : List I64 → I64
  | [] => indexMax64
  | x :: rest => min64 x (variadicMin64 rest)

/-- array.h:892-896 `internal::find_stride`. -/
def findStride64 (extent : I64) (dims : List Dim64) : Option I64 := do
  let a ← filterStride64 1#64 extent dims
  let bs ← dims.mapM fun d => do
    let c ← candidateStride64 d
    filterStride64 c extent dims
  some (variadicMin64 (a :: bs))

/-- One step of array.h:902-907: `dim0` after `set_stride`. -/
def resolveDim64 (d : Dim64) (all_ : List Dim64) : Option Dim64 :=
  if isUnresolved64 d.stride then do
    let st ← findStride64 d.extent all_
    some { d with stride := st }
  else some d

/-- array.h:899-908 `internal::resolve_unknown_strides(all_dims, dim0, dims...)`. -/
def resolveLoop64 : List Dim64 → List Dim64 → Option (List Dim64)
  | done, [] => some done
  | done, d0 :: ds => do
    let d0' ← resolveDim64 d0 (done ++ d0 :: ds)
    resolveLoop64 (done ++ [d0']) ds

/-- array.h:910-913, 1161 `shape::resolve`. -/
def Shape64.resolve (s : Shape64) : Option Shape64 := resolveLoop64 [] s

end Nda
