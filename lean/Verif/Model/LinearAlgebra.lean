import Verif.Model.ResampleImage
import Verif.Model.ZOrder
import Mathlib.Data.Fin.VecNotation
/-
Model of examples/linear_algebra/matrix.cpp: the ten versions of matrix multiplication.

All values live in one memory, including the local accumulator `buffer`, which is at address `buf`.  The
parameters `tileRows`, `tileCols` and `tileK` stand for the constants `tile_rows = 4`,
`tile_cols = 3 * 32 / sizeof(T)` and `tile_k = 256`.  `none`: an assertion fails, an element out of the
range of a view is used, a null pointer is dereferenced, or a loop does not end.
Simplifications: the `_mm_prefetch` hints are not modelled; `int` is unbounded in `multiply_ref`.
-/
namespace Nda

/-- The operations of the element type. -/
structure ScalarOps (F : Type) where
  zero : F
  add : F → F → F
  mul : F → F → F
  lt : F → F → Bool

/-- An `array_ref` of rank 2. -/
structure Image2 where
  base : Option Int
  i : SDim
  j : SDim

namespace Image2

/-- The dims of the shape. -/
def dims (a : Image2) : List SDim := [a.i, a.j]

/-- array.h:2083-2086 `a(i, j)` for indices in range: the address. -/
def at_ (a : Image2) (i j : Int) : Option Int :=
  if a.i.val.isInRange i && a.j.val.isInRange j then
    pointerAdd a.base (Shape.flatOffset (values a.dims) [i, j]) else none

/-- array.h:1997-2004, 2096-2099 `a(i, j)` for intervals `i` and `j`. -/
def crop (a : Image2) (i j : SDim) : Image2 :=
  ⟨pointerAdd a.base (Shape.flatOffset (values a.dims) [i.val.min, j.val.min]),
    SDim.rangeInterval i a.i, SDim.rangeInterval j a.j⟩

end Image2

/-- `for (index_t i : v)`. -/
def forRange {σ : Type} (v : Interval) (body : σ → Int → Option σ) (m : σ) : Option σ := do
  let l ← Interval.iterate v
  l.foldlM body m

/-- The value of `split<Extent>`, an `interval<dynamic, Extent>`. -/
def tileInterval (extent : Int) (v : Interval) : SDim := ⟨⟨dynamic, extent, dynamic⟩, ⟨v.min, v.extent, unresolved⟩⟩

/-- `make_array_ref(buffer, make_compact(s.shape()))` for a buffer at address `buf`. -/
def compactRef (s : Image2) (buf : Int) : Image2 :=
  match makeCompact s.dims with
  | [i, j] => ⟨some buf, i, j⟩
  | _ => ⟨none, s.i, s.j⟩

/-- `p[i]` for a pointer `p` to the first of `n` elements. -/
def pointerAt (p n i : Int) : Option Int := if 0 ≤ i && i < n then some (p + i) else none

section
variable {F : Type} (o : ScalarOps F)

/-- `c = v` for the address `c` of an element. -/
def storeAt (c : Option Int) (v : F) (m : Mem F) : Option (Mem F) := do
  let c ← c
  pure (m.set c v)

/-- `c += a * b` for the addresses of three elements. -/
def mulAddAt (c a b : Option Int) (m : Mem F) : Option (Mem F) := do
  let c ← c
  let a ← a
  let b ← b
  pure (m.set c (o.add (m c) (o.mul (m a) (m b))))

/-- `c = a`. -/
def copyAt (c a : Option Int) (m : Mem F) : Option (Mem F) := do
  let c ← c
  let a ← a
  pure (m.set c (m a))

/-- `c += a`. -/
def addAt (c a : Option Int) (m : Mem F) : Option (Mem F) := do
  let c ← c
  let a ← a
  pure (m.set c (o.add (m c) (m a)))

/-- matrix.cpp:36-46 `multiply_reduce_cols`. -/
def multiplyReduceCols (A B C : Image2) (m : Mem F) : Option (Mem F) :=
  forRange C.i.val.toInterval (fun m i =>
    forRange C.j.val.toInterval (fun m j => do
      let m ← storeAt (C.at_ i j) o.zero m
      forRange A.j.val.toInterval (fun m k => mulAddAt o (C.at_ i j) (A.at_ i k) (B.at_ k j) m) m) m) m

/-- matrix.cpp:55, 97, 124, 246 `ein_reduce(ein<i, j>(C) += ein<i, k>(A) * ein<k, j>(B))`. -/
def multiplyEin (debug : Bool) (i j k : Nat) (A B C : Image2) (m : Mem F) : Option (Mem F) :=
  einReduceDebug debug o.add ⟨.arr C.base C.dims, [i, j]⟩
    (.binary o.mul (.op ⟨.arr A.base A.dims, [i, k]⟩) (.op ⟨.arr B.base B.dims, [k, j]⟩)) m

/-- matrix.cpp:50-56 `multiply_ein_reduce_cols`. -/
def multiplyEinReduceCols (debug : Bool) (A B C : Image2) (m : Mem F) : Option (Mem F) :=
  multiplyEin o debug 2 1 0 A B C (fill ⟨C.base, values C.dims⟩ o.zero m)

/-- matrix.cpp:60-71 `multiply_ref`. -/
def multiplyRef (A B C M K N : Int) (m : Mem F) : Option (Mem F) :=
  forRange ⟨0, M⟩ (fun m i =>
    forRange ⟨0, N⟩ (fun m j => do
      let sum ← forRange ⟨0, K⟩ (fun sum k => do
        let a ← pointerAt A (M * K) (i * K + k)
        let b ← pointerAt B (K * N) (k * N + j)
        pure (o.add sum (o.mul (m a) (m b)))) o.zero
      storeAt (pointerAt C (M * N) (i * N + j)) sum m) m) m

/-- matrix.cpp:76-88 `multiply_reduce_rows`. -/
def multiplyReduceRows (A B C : Image2) (m : Mem F) : Option (Mem F) :=
  forRange C.i.val.toInterval (fun m i => do
    let m ← forRange C.j.val.toInterval (fun m j => storeAt (C.at_ i j) o.zero m) m
    forRange A.j.val.toInterval (fun m k =>
      forRange C.j.val.toInterval (fun m j => mulAddAt o (C.at_ i j) (A.at_ i k) (B.at_ k j) m) m) m) m

/-- matrix.cpp:92-98 `multiply_ein_reduce_rows`. -/
def multiplyEinReduceRows (debug : Bool) (A B C : Image2) (m : Mem F) : Option (Mem F) :=
  multiplyEin o debug 2 0 1 A B C (fill ⟨C.base, values C.dims⟩ o.zero m)

/-- matrix.cpp:100-115 `multiply_reduce_matrix`. -/
def multiplyReduceMatrix (A B C : Image2) (m : Mem F) : Option (Mem F) := do
  let m ← forRange C.i.val.toInterval (fun m i =>
    forRange C.j.val.toInterval (fun m j => storeAt (C.at_ i j) o.zero m) m) m
  forRange A.j.val.toInterval (fun m k =>
    forRange C.i.val.toInterval (fun m i =>
      forRange C.j.val.toInterval (fun m j => mulAddAt o (C.at_ i j) (A.at_ i k) (B.at_ k j) m) m) m) m

/-- matrix.cpp:119-125 `multiply_ein_reduce_matrix`. -/
def multiplyEinReduceMatrix (debug : Bool) (A B C : Image2) (m : Mem F) : Option (Mem F) :=
  multiplyEin o debug 1 0 2 A B C (fill ⟨C.base, values C.dims⟩ o.zero m)

/-- matrix.cpp:188, 242, 294 `T buffer[n] = {0}`. -/
def zeroBuffer (buf n : Int) (m : Mem F) : Mem F := fun p => if buf ≤ p ∧ p < buf + n then o.zero else m p

/-- matrix.cpp:191-198: the loops that accumulate one tile.  The z-order version has the same loops
(matrix.cpp:298, 305-310), over `ko`, `io` and `jo`. -/
def accumulateTile (A B acc : Image2) (ks is js : Interval) (m : Mem F) : Option (Mem F) :=
  forRange ks (fun m k =>
    forRange is (fun m i =>
      forRange js (fun m j => mulAddAt o (acc.at_ i j) (A.at_ i k) (B.at_ k j) m) m) m) m

/-- matrix.cpp:206-210, 254-258, 318-322: copy the accumulators to the output. -/
def storeTile (acc tile : Image2) (is js : Interval) (m : Mem F) : Option (Mem F) :=
  forRange is (fun m i => forRange js (fun m j => copyAt (tile.at_ i j) (acc.at_ i j) m) m) m

/-- matrix.cpp:324-328: add the accumulators to the output. -/
def addTile (acc tile : Image2) (is js : Interval) (m : Mem F) : Option (Mem F) :=
  forRange is (fun m i => forRange js (fun m j => addAt o (tile.at_ i j) (acc.at_ i j) m) m) m

/-- matrix.cpp:173-212: the body of the loops over tiles of `multiply_reduce_tiles`. -/
def multiplyTile (tileRows tileCols buf : Int) (A B C : Image2) (io jo : Interval) (m : Mem F) : Option (Mem F) := do
  let tile := C.crop (tileInterval tileRows io) (tileInterval tileCols jo)
  let acc := compactRef tile buf
  let m := zeroBuffer o buf (tileRows * tileCols) m
  let m ← accumulateTile o A B acc A.j.val.toInterval tile.i.val.toInterval tile.j.val.toInterval m
  storeTile acc tile tile.i.val.toInterval tile.j.val.toInterval m

/-- matrix.cpp:232-260: the body of the loops over tiles of `multiply_ein_reduce_tiles`. -/
def multiplyEinTile (debug : Bool) (tileRows tileCols buf : Int) (A B C : Image2) (io jo : Interval) (m : Mem F) :
    Option (Mem F) := do
  let tile := C.crop (tileInterval tileRows io) (tileInterval tileCols jo)
  let acc := compactRef tile buf
  let m := zeroBuffer o buf (tileRows * tileCols) m
  let m ← multiplyEin o debug 1 0 2 A B acc m
  storeTile acc tile tile.i.val.toInterval tile.j.val.toInterval m

/-- matrix.cpp:171-172, 230-231: `for (auto io : split<tile_rows>(C.i())) for (auto jo : split<tile_cols>(C.j()))`. -/
def forTiles (debug : Bool) (tileRows tileCols : Int) (C : Image2)
    (body : Interval → Interval → Mem F → Option (Mem F)) (m : Mem F) : Option (Mem F) := do
  requireAssert debug (splitStaticAssert tileRows C.i.val.toInterval)
  let is ← (splitStatic tileRows C.i.val.toInterval).iterate
  is.foldlM (fun m io => do
    requireAssert debug (splitStaticAssert tileCols C.j.val.toInterval)
    let js ← (splitStatic tileCols C.j.val.toInterval).iterate
    js.foldlM (fun m jo => body io jo m) m) m

/-- matrix.cpp:160-215 `multiply_reduce_tiles`. -/
def multiplyReduceTiles (debug : Bool) (tileRows tileCols buf : Int) (A B C : Image2) (m : Mem F) : Option (Mem F) :=
  forTiles debug tileRows tileCols C (multiplyTile o tileRows tileCols buf A B C) m

/-- matrix.cpp:218-263 `multiply_ein_reduce_tiles`. -/
def multiplyEinReduceTiles (debug : Bool) (tileRows tileCols buf : Int) (A B C : Image2) (m : Mem F) :
    Option (Mem F) :=
  forTiles debug tileRows tileCols C (multiplyEinTile o debug tileRows tileCols buf A B C) m

/-- matrix.cpp:289-330: the function called for each tile by `multiply_reduce_tiles_z_order`. -/
def multiplyZTile (tileRows tileCols buf : Int) (A B C : Image2) (ko io jo : Interval) (m : Mem F) :
    Option (Mem F) := do
  let tile := C.crop (tileInterval tileRows io) (tileInterval tileCols jo)
  let acc := compactRef tile buf
  let m := zeroBuffer o buf (tileRows * tileCols) m
  let m ← accumulateTile o A B acc ko io jo m
  if ko.min == A.j.val.min then storeTile acc tile io jo m else addTile o acc tile io jo m

/-- z_order.h:80-89, 105-111 `for_all_in_z_order(std::make_tuple(r, s), fn)` for two `split_result`s. -/
def forAllInZOrder2 (r s : SplitResult) (fn : Interval → Interval → Mem F → Option (Mem F)) (m : Mem F) :
    Option (Mem F) := do
  let is ← forEachIndexInZOrder (n := 1) ![r.end_.sub r.begin_, s.end_.sub s.begin_]
  is.foldlM (fun m i => fn (r.get (i 0)) (s.get (i 1)) m) m

/-- matrix.cpp:270-332 `multiply_reduce_tiles_z_order`. -/
def multiplyReduceTilesZOrder (debug : Bool) (tileRows tileCols tileK buf : Int) (A B C : Image2) (m : Mem F) :
    Option (Mem F) := do
  let kos ← (splitDynamic A.j.val.toInterval tileK).iterate
  kos.foldlM (fun m ko => do
    requireAssert debug (splitStaticAssert tileRows C.i.val.toInterval)
    requireAssert debug (splitStaticAssert tileCols C.j.val.toInterval)
    forAllInZOrder2 (splitStatic tileRows C.i.val.toInterval) (splitStatic tileCols C.j.val.toInterval)
      (multiplyZTile o tileRows tileCols buf A B C ko) m) m

end
end Nda
