# Formal model of dsharlet/array in Lean 4 — design

The code under study is the header library in `/repo/include/array` (`array.h`,
`ein_reduce.h`, `z_order.h`, `matrix.h`, `image.h`) and the exact-arithmetic parts of
`/repo/examples/resample` (`rational.h`, `resample.h`, `resample.cpp`).  The code is read as text; nothing
is compiled or run.  `properties.jsonl` lists the properties (C01, C02, …).

## Layout

* `lean/Verif/Model/*`  – the model: one Lean definition per C++ function, each with a comment
  naming the file and lines it models.  Boolean functions named `…Assert` are the conditions of the
  `assert`s of the function.
* `lean/Verif/Spec/*`   – small specifications, written without using the model functions
  (what "in range", "exactly once", "partition", … mean).  They mention only the data types of the
  model.
* `lean/Verif/Lemmas/*` – supporting lemmas.
* `lean/Verif/Props/*`  – the property theorems `CNN_…`, with `example`s that instantiate the hypotheses
  or evaluate the model on non-trivial data.  A theorem named `…_counterexample`, `…_diverges` or
  `…_accepted` proves that the code does *not* do what one could expect, with a concrete witness.
* `lean/Verif/Check/*`  – no proofs: the expectations of the repository's own tests (shape, shuffle, sort, array_ref,
  split, image, z_order, algorithm, ein_reduce, parts of array), evaluated on the model with `#guard`; the counts of
  test/array_lifetime.cpp are examples in `Props/ArrayCalls.lean`.  The model agrees with all of them.
* `MANIFEST.json` – property → theorem names.
* `AXIOMS.md` – the axioms of every property theorem.
* `seeded/LOG.jsonl` – seeded-bug experiments (see below).

## Modelling decisions

| C++ | Lean |
|---|---|
| `index_t` | `Int` (unbounded).  The constants `dynamic = -9`, `unresolved = -2^63` and the largest index `2^63-1` are kept, and every comparison with them is modelled.  Fixed-width effects are treated separately: C47 relates a checked 64-bit evaluation of the index arithmetic to the unbounded one; C44–C46 are on `BitVec`. |
| `dim<>` run-time value | `structure Dim {min extent stride : Int}` |
| `dim<Min,Extent,Stride>` | `structure SDim {ty : DimT, val : Dim}`: template parameters and run-time value; a static parameter *reads* as its constant (`constexpr_index`), an incompatible write is an assertion failure |
| `shape<Dims...>`, tuples, packs | `List`; a variadic recursion is a structural recursion, overload resolution becomes pattern matching in the same case order |
| `assert` | a boolean function `…Assert`; theorems say when it holds and what happens without it |
| range-`for` (`!=` loops) | a loop that may not end; not ending is the outcome `none` |
| callback `fn` | the trace (list) of argument tuples in call order; effects on memory are a fold of the trace |
| memory of elements | `Int → α` (address → value) for algorithms, `ein_reduce`, `resample`; a heap of blocks with per-cell construction state for object lifetimes (`Model/Array.lean`) |
| pointers | `Option Int` (`none` = `nullptr`), arithmetic in element units; in bytes for C87 (`Model/Bytes.lean`) |
| undefined behaviour (out of bounds, double destruction, null dereference, signed overflow) | a distinct outcome (`none`, a fault) or an explicit predicate on the trace |
| allocators | a resource identifier plus the `propagate_on_…` flags as parameters; for `auto_allocator` also the identity of the object and whether its buffer is in use |

## What is modelled, by file

* `array.h` 94–330 constants, `interval`, `clamp`, `split` → `Core`, `Split`, `Static`.
* `array.h` 390–500 `dim`, static arithmetic → `Core`, `Static`.
* `array.h` 500–1040 tuples, slicing helpers, stride resolution, `is_one_to_one`, `is_compact` → `Core`, `Ref`, `Static`.
* `array.h` 1040–1700 `shape`, loops, `for_each_index`, shape optimization, `make_compact`, `convert_shape`, `transpose`, `reorder` → `Loops`, `Ref`, `Static`; pointers formed by the loops → `Pointers`; restricted pointers → `Restrict`.
* `array.h` 1700–2260 `array_ref` → `Ref`, `Algorithms`.
* `array.h` 2260–2750 `array` → `Array`, `Reinterpret`, `ArrayCompare`, with exceptions `ArrayThrow` and `Exceptions`, with references to elements `ElemRef`.
* `array.h` 2750–2960 `copy`, `move`, `equal`, `fill`, `generate`, `transform_index`, `make_copy`, … → `Algorithms`, `Array`; moves of function objects → `Callables`.
* `array.h` `auto_allocator` → `AutoAlloc` (on its own), `Array` (as the allocator of arrays); `uninitialized_allocator` → `Uninitialized`.
* `matrix.h`, `image.h` → `Image`, `Layouts`; `z_order.h` → `ZOrder`; `ein_reduce.h` → `Ein`, in programs with arrays `EinArray`.
* Overflow of index arithmetic → `Checked` (64 bits), `CheckedLoops` (any width, for `NDARRAY_INT_INDICES`).
* Constraints of overloads and the types of views → `Compiles`.
* Elements as bytes, `reinterpret`, `reinterpret_const`, alignments → `Bytes`.
* The accesses made by the algorithms, one by one, for several threads → `Threads`.
* The assertions on null bases in loops over values → `NullViews`.
* `ein_reduce` and `equal` with different element types and partial operators → `Mixed`.
* `absl/absl.h` → `Strings`; `interval`, `index_iterator` and comparisons → `Interval`.
* `examples/resample/rational.h` → `Rational`; `resample.h` → `Kernels`, `KernelsFloat`, `Resample`, `ResampleImage`; `resample.cpp` → `ResampleProgram` (the pixel cache of
  Magick++ is a memory of integers; reading and writing files, `atoi` and the usage message are not modelled).
* `test/main.cpp` → `TestMain`; `test/test.h` 133–171 → `TestPattern`; `test/performance.cpp` → `TestCopies`.
* `examples/linear_algebra/matrix.cpp` (all versions of `multiply` but BLAS) → `LinearAlgebra`; `conv2d_relu.cpp` → `Convolution`;
  both `main`s and `examples/benchmark.h` → `ExamplePrograms` (without printing; allocations succeed; random numbers and times are
  given sequences; no `-ffast-math`).

## Not modelled

Overload resolution and SFINAE other than the checks named in the properties and in C83, CUDA
annotations, inlining attributes, `NDARRAY_RESTRICT` (noalias) other than in C74, the bits of
floating-point numbers (element values are abstract; sums are kept in evaluation order; C82 and C84 assume bounds on the rounding of each
operation, proved for IEEE formats, and that compilers neither reorder nor contract operations, which the `-ffast-math` of the Makefiles permits), exceptions other than in C56 and C78 (for arrays),
`std::allocator` internals, `NDARRAY_PRINT_ERR` text, `absl::Format` (trusted to print integers in decimal), the example programs
other than those named above, prefetches, conversions between element types (other than in C85 and C89).

## Trusted base

* Lean's kernel (the proofs are replayed by `vcheck`).
* The axioms `propext`, `Classical.choice`, `Quot.sound`; `AXIOMS.md` lists them per theorem.  No other
  axioms, no `sorry`, no `native_decide`, no `bv_decide`.
* That the definitions in `Verif/Model` say what the C++ lines that they cite do, and that the
  definitions in `Verif/Spec` say what the words of the properties mean.
* The simplifications stated at the head of each model file and above.

## Per property

| id | modelled | theorems say, and how they are proved |
|---|---|---|
| C01 | `flatOffset` with the overloads of `sum` | equals Σ (i-min)·stride; step and origin laws.  Induction on dims. |
| C02 | `flatMin`, `flatMax`, `flatExtent` | bounds by induction on dims; attained by explicit extreme indices |
| C03 | `size`, `empty` | length of any duplicate-free complete list of in-range indices; negation for two negative extents |
| C04–C07 | `resolve`, `findStride`, `filterStride`, `isStrideOk`, `candidateStride` | invariant over the left-to-right resolution; an admissible candidate exists (the largest span); nested dims are injective (mixed radix) |
| C08–C10 | `isOneToOne`, `isCompact`, `isSubsetOf`, `set_shape`, `reinterpret_shape` | pigeonhole on the flat range; negations with witnesses |
| C11 | the `!=` loop of range-`for` | terminates iff extent ≥ 0, closed form of the visited indices |
| C12–C13 | the loop nest (two dims at a time), `unshuffle` | the trace is the duplicate-free complete list sorted by the loop order; such a list is unique (`C12_unique`) |
| C14 | `dynamicOptimizeShape` (bubble sort, fuse loop, padding) and the pointer loops | the multiset of visited addresses is preserved by each step |
| C15–C18 | `copy`, `equal`, `operator==`, `dynamicOptimizeCopyShapes` | two-pointer version of C14 plus the memory fold |
| C19 | `fill`, `generate`, `transform_index` | memory fold |
| C20–C22 | crop, slice, `is_in_range`, `transpose`, `reorder` | address equations by induction over the argument list |
| C23 | `enableIfPermutation` | completeness by invariance of the product under permutation; soundness up to 4; for every rank ≥ 5 a non-permutation that is accepted |
| C24–C26 | `split`, `split<N>`, their iterators | closed form of the iterates; exact condition for `begin()+size() == end()`; the assertion is exactly the termination condition (`C25_assertion`) |
| C27 | `clamp` | order |
| C28 | `constexpr_index`, static `+ - * max min`, `dim` constructors, conversions, assignments, `is_compatible`, crop types | case analysis on static/dynamic |
| C29 | `make_compact`, `fixed_dense_shape` | C05 for the dynamic case; mixed radix for a dense inner dim; counterexamples |
| C30 | `convert_shape` between ranks | address equation |
| C31–C35 | class `array` as a machine on a heap whose cells are unallocated, raw or constructed | invariant (each array owns its block, fully constructed) kept by every statement, hence by every program; counterexamples for programs outside the stated preconditions |
| C36 | `auto_allocator` | invariant over all call sequences |
| C37–C39 | `image.h`, `matrix.h` | C20 for crops; loop nests as C12, C14 |
| C40 | the recursion on `z_order.h` | the trace is the complete list sorted by Morton code; negation for empty ranges |
| C41–C43 | expression tree, `ein_reduce`, `reconcile_dim`, `make_ein_sum` | the loop nest visits the sorted list of index tuples; memory fold; commutative regrouping for `+=`; negation for a repeated index |
| C44 | `euclidean_div`, `euclidean_mod` at every bit width | signed `BitVec` division against the mathematical one |
| C45 | `rational.h` | Euclid's algorithm on 64-bit integers; canonical fractions against ℚ |
| C46 | `build_kernels` | the scan over the input finds the first and last non-zero value; sum in ascending order; positions from C45 |
| C47 | 64-bit evaluation of the index arithmetic, overflow = undefined | every intermediate value is bounded by the stated sum |
| C48 | `move_reinterpret_shape` | C10 with the right sign; the assertion has the wrong sign (witness) |
| C49 | `move` | as C15, with the moved-from marks |
| C50 | `for_each_value_in_order` | the trace in index order |
| C51 | `resample`, `resample_y`, `make_temp_image` | row by C41, strip by two passes and two transposes, strips by C25; one memory holds images, kernels and temporaries |
| C52 | the `multiply_…` functions but z-order | each loop nest is a fold of writes; the value of an element is a fold in ascending `k` (`MemLoops`); tiles by C25, `ein_reduce` by C41 |
| C53 | `multiply_reduce_tiles_z_order` | tiles by C40 and C25; counting the tiles that have an element; partial, with the negation proved |
| C54 | `conv2d_naive`, `conv2d_tiled` | as C52, tiles by C20, C19 and C25 |
| C55 | `make_copy`, `make_compact_copy`, `make_move`, `make_compact_move` as statements of array programs | invariant of C31, element loop as a permutation of the box (C15), C29 for compact shapes; `return dst` is taken as elided |
| C56 (partial) | `assign` and four constructors, left by an exception of element `k` or of the allocator (`Model/ArrayThrow.lean`: the element loop stops after `k` elements; no code follows but the destructor after a delegating constructor); all statements with constructors that throw (`Model/Exceptions.lean`, see C78) | the loop lemmas of C31 for the first `k` elements; the destructor meets an element that is not alive. All statements: `Hit r0 Q r` (Lemmas/ExceptionsConstruct.lean) with `Ruin`: an allocation belongs to no array, or to one with more elements than are alive in it; destructors of other local variables do not repair that. `C56_agree_…`: the two models agree |
| C57 | `auto_allocator` as the allocator of array programs: an allocation knows whether it is from an arena or the buffer of an allocator object, `deallocate` compares | the invariant of C31 has where each array's memory is from; the buffers of `small_matrix` and `small_vector` hold exactly their shapes (with the shape types of C67) |
| C58 | `copy`, `move`, `for_each_value` (with `fill` and `generate`) and `transform_index` on views of arrays as statements of array programs | each statement is a fold over an enumeration of the view; what a fold of copies does to one address |
| C59 | `constant_index`, `index_iterator`, `interval` construction/conversion/assignment/`set_max`, `range`, `clamp`, comparisons of intervals, dims and shapes (Model/Interval.lean) | against a spec of intervals as sets of indices; linear arithmetic, induction on the number of increments or the rank |
| C60 | absl.h: the texts as lists of characters, numbers as `Nat.toDigits 10` (Model/Strings.lean) | a number ends at the first character that is neither digit nor minus, so the texts can be split again |
| C61 | the model of C14 and C15 (`bubbleSort`, `fuseLoop`, `forEachValue`, `copyForEachValue`) | the sequence of offsets of the sorted dims is kept by fusing and padding; it increases exactly if the sorted dims are stacked; stacked arrangements are unique up to dims of extent 1 |
| C62 | the kernel functions of `resample.h`, over ordered fields and ℝ instead of `float`; `build_kernels` and `resample` (C46, C51) with the field operations | at most four samples count: the polynomial identity for each piece; positive sums: on either side of the centre every negative value but two is outweighed by a value one kernel width closer. `lanczos`: the sum over the samples on each side of the position is bounded below by summation by parts (`abel_bound`; the window and 1/s decrease, sums of sines have a closed form), the side of the nearest sample outweighs the other |
| C63 | the state has the list of calls of element constructors, assignments and destructors; the table `callsOf` is written independently of the code, from the state before the statement | composition of the calls of the private members; the balance: every primitive keeps constructor calls = destructor calls + live elements in allocations, and the invariant of C31 says whose they are |
| C64 | the view functions of C20–C23 and C37, composed | equality of refs (pointer and shape): `thenArgs` by induction over the arguments; transposes as lists of dim indices |
| C65 | the model of C41–C43; renaming and transposing are separate functions on operands (Spec/EinAlgebra.lean) | the memory after a reduction as a fold over the loop indices; the set of loop indices and the values at them are the same; for renaming the order changes, so updates must commute |
| C66 | the model of C41–C43, crops as in C20, `split` as in C24 and C25 | the loop indices of the pieces are a permutation of those of the whole; for the outermost loop the same list |
| C67 | the shape types of image.h and matrix.h and their construction from intervals (Model/Layouts.lean), resolving strides as in C04–C07 | `find_stride` for one and for two known dims in closed form; positions are mixed radix digits; the constructors' assertions hold exactly if every static min and extent is that of the interval |
| C68 | as C67 | closed form of the stride of `y`; partial: the documented layout holds unless all rows of a column fit into one pixel (finding 50) |
| C69 | `==`, `!=` and `equal` of arrays and views in a state of the array programs (Model/ArrayCompare.lean) | the pairs visited by `copy_shape_traits` are those of equal indices (as for C17, C18); contents after the commands from C32 to C35 and C55 |
| C70 | all array programs (Model/Array.lean, Model/ArrayCompare.lean); correspondence of values, states and programs in Spec/Relate.lean | relational parametricity: each function of the model takes states that correspond to such states (Lemmas/Relate.lean) |
| C71 | `uninitialized_allocator` as array programs over `Option V` where `T()` is `none`; the skipped constructor in Model/Uninitialized.lean | skipping construction leaves the same state as constructing `none` (fresh memory has no values); then C70 with the relation "indeterminate or equal" |
| C72 | `ein_reduce` and `make_ein_sum` as statements of array programs (Model/EinArray.lean): operands are views of arrays, reading and assigning elements may go wrong, the result is a new array; hypotheses in Spec/EinArray.lean | the loop is a fold of updates of single elements of the heap; operands are read in a state that agrees with the first one outside of `lhs`; the matrix theorems enumerate the loop indices as in C41 and use C69 for `==`. `C72_alias_counterexample` shows that the operands have to be apart from the result |
| C73 | a trace of the loops with the calls and every pointer formed by `end = base + extent`, `++` and `advance` (Model/Pointers.lean); `C73_calls` shows that its calls are those of the loops modelled before | the largest pointer formed by sorted dims is compared with the last element, dim by dim; fusing dims keeps this (it removes pointers that were within), padding dims add 0; strides of extent 1 count like others. `C73_array` and `C73_view` put this into the memory of programs. Negations: `C73_counterexample`, `C73_row_counterexample`, `C73_extent_one_counterexample`, `C73_copy_counterexample` |
| C74 | the loops of copies with their calls grouped by the call of the innermost function whose parameters are `__restrict__` (Model/Restrict.lean); `C74_calls` shows that the calls are those of C15 | disjoint views: every pair of the trace is a pair of elements; equal shapes: both pointers move in step, the groups are the fused rows, overlap is a statement about the smallest fused dim. Only accesses by the loop itself count: a user function given to `for_each_value` that reaches the array by another way is not covered |
| C75 | `assign`, the constructor and `fill` with the address of an element, read when the code reads it (Model/ElemRef.lean) | the address is outside of the block that is constructed, so every read gives the old value; own elements: the state after `destroy` or `deallocate` is computed (`C75_own`). `dead` stands for reading a destroyed element; for element types with trivial destructor this is undefined since C++20 and reads the old value in practice. A released element is `outOfBounds` also if the memory was the buffer of an `auto_allocator` |
| C76 | programs of Model/Array.lean, `elemAddr` of Model/ElemRef.lean | Lemmas/Validity: memory given back stays given back, functions that do not change other objects; Lemmas/ValidityExec: for each statement, where `buffer_`, `base_` and `shape_` go. `Lost` and `KeptBy` (Spec/Validity.lean) are tables by statement. Allocation numbers are not reused in the model, as the value of a pointer to released memory is indeterminate in C++ |
| C77 | Model/Tiling.lean: the nested loops of README.md:225-240 and bodies that call the modelled algorithms on `a.crop t` | Lemmas/Tiling: pieces of one dim from C24 and C25, tiles of a shape by induction on the dims, one lemma for all operations that set the elements of a tile (`tiled_fold`), counts of visits for updates; z order from C40. `CutOk` and `NoOverlap` (Spec/Tiling.lean) are the preconditions |
| C78 | all statements of Model/Array.lean once more, with one kind of function of which call number `n` throws (Model/Exceptions.lean): what is skipped, which destructors run, what a throwing assignment leaves in the elements (any value). Programs with any number of caught exceptions: `execTryAll` | `Safe r0 Q r`: a function that can throw returns what `r0` gives, or throws in a state with `Q`; rules for sequence, scope and element loops, then one lemma per function (Lemmas/Exceptions.lean). The invariant of C31 is made to admit arrays without memory whose shape has elements (`Hollow`): this is what a failed allocation leaves. `ConstructsQuietly` (Spec/Exceptions.lean) excludes constructors of elements, for which C56 proves the negation |
| C79 | a class of function objects as three functions: call operator (on the object, an argument and everything outside, including memory), move constructor, copy constructor. The loops and algorithms, for the four kinds of `shape_traits`, with the closures they build (Model/Callables.lean) | `Calls`, `Assigns` (Spec/Callables.lean): sequences of calls as relations. Each algorithm is shown to have an outcome iff there is such a sequence over the indices or addresses of C12, C13, C14, C38, C39. `C79_agree_transform_index`, `C79_agree_generate`: for objects that calls and moves do not change this is the model used in C19 |
| C80 | a list of steps `ViewOp`, executed with the functions of `Model/Ref.lean`, `Image.lean`, `Static.lean`; statements of C55 and C58 on the resulting view (Model/ViewChains.lean) | `ViewOpOk`, `origIndex`, `chainIndex` (Spec/ViewChains.lean) say when a step is in range and which index it means. `viewOp_step`: each step is a view (`ViewOf`) of its operand; `ViewOf` composes; the statements follow from C55 and C58. New dims of `convert_shape` must have a known stride. `C80_reorder_empty_counterexample`: finding 58 |
| C81 | `optimize_shape`, `optimize_copy_shapes`, the start of a copy, `split`, z-order on integers of `w` bits (Model/CheckedLoops.lean) | `FuseFits` (Spec/CheckedLoops.lean) holds the bounds; each fusing step keeps them (`FuseFits.fuse`), so the bounded loop follows the unbounded one. Splits and z-order by simulation of C24, C25 and C40. `C81_z_order_overflow`: the bound is exact. Counterexamples: finding 59 |
| C82 | nothing new: the functions of C41, C52, C53 and C54, with an arithmetic that rounds (`Rounds`, Spec/Rounding.lean); `val` gives the rational number that a finite value stands for | these theorems give the exact order of operations; the error of a sum of perturbed values is bounded by induction on the list (`Rounds.sum`), products are perturbed by the rounding of `*`, the blocks of the z-order version by their own error; `ReLU` does not enlarge errors. `Rounds` is shown for the IEEE 754 binary formats with rounding to nearest, gradual underflow and overflow (`C82_binary`; binary32: `C82_float`; Spec/RoundingBinary.lean; zeros have no sign, infinities and NaN are one value), for numbers of `p` digits without bounds on exponents, for integers of at most `2^p` among them (exact), and for fixed-point numbers. `C82_simple` is the bound with `n u / (1 - n u)`; `C82_example` the one for the sizes of matrix.cpp. `C82_attained`: a `1 x 1` product whose error is the bound. `C82_rearranged`: the bound, with the depth of the tree, for any tree of additions, and of products contracted with additions, of the same products, as a compiler may choose with the `-ffast-math` of the Makefiles |
| C83 | types of arguments as number, interval type, dim type or other; the constraints of `operator()`, `operator[]`, `is_in_range`, of conversions and of loops with an order as Boolean functions of types; views with the types of their dims (`typedView`) | constraints are compared with descriptions of calls (Spec/Compiles.lean); types of views by induction on the dims, with C28 for one dim; loops by counting the indices that `unshuffle` returns. Types with conversion operators of their own, and errors in the bodies of conversions between shapes, are not modelled. test/errors.cpp gives the examples |
| C84 | nothing new: `resample`, `buildKernels` and `weight` of C46 and C51 with an arithmetic that rounds (`RoundsFloat`, Spec/RoundingResample.lean; `float32` is IEEE binary32 with infinities and NaN as one outcome and unsigned zeros) | C51 gives the order of operations; the sum of the weights and the quotients are bounded relative to `condition` (`GoodWeights.tap`), each of the two directions is a sum of perturbed products (`Spec.RoundsFloat.stage`, `kernelSum_error`). `C84_weight` follows the conversions of rational positions. `C84_kernel` is exact algebra on weighted means. The error of kernels is a hypothesis (`ε`) here; C91 proves it for the polynomial kernels. `sin` of the Lanczos kernel is not modelled |
| C85 | `resizeImage` (Model/ResampleProgram.lean): `magick_to_array`, `array_to_magick`, the limitation to the range of components and the rest of `main`, with `copyBetween` as `copy` between element types, whose conversion may be undefined; `parseKernel` | C67 gives the shapes, `C85_copy` the conversions, C51 the resampling (`C85_program`, for any arithmetic). `C85_exact` takes the error bound of C84 with u = 0 and the positive sums of C62; `C85_rounding` the bound itself. `C85_placement` shows that objects placed one after the other satisfy the separation hypothesis. `resizedValue` (Spec/ResampleProgram.lean) is stated without rationals, kernels or arrays |
| C86 | `optimizeShape`, `optimizeCopyShapes` (Model/Loops.lean), `Shape.valueEvents` (Model/Pointers.lean) | A nest whose extents are at least 2 and whose neighbours cannot be fused is determined by the sequence of its offsets (`fixed_unique`: the first stride is the second offset, the first extent the first step at which the offset is not a multiple of it). Any other nest with the same sequence becomes such a nest by dropping loops that run once and fusing, which does not lengthen it. C61 gives the single loop of arrays without gaps. `loopCount` and `pointerSteps` (Spec/Fusing.lean) count loops and pointer increments |
| C87 | Model/Bytes.lean: memory as bytes and objects that begin at addresses; an access checks alignment, the object and the aliasing rule of C++ ([basic.lval]); the meaning of bytes as values is a parameter (`Representation`) | elements are `sizeof(T)` bytes apart, so two of them are the same or disjoint; constructing is a fold over the addresses of C14, bounded by C02; powers of two for `alignas`. Spec/Bytes.lean: `GoodType` (what C++ guarantees of `sizeof` and `alignof`), `Elements` (every element is an object of its type at an aligned address) |
| C88 | Model/Threads.lean: each call as the list of its reads and writes, in order (`fillThread`, `copyThread`, …, `einThread`); threads with registers; `interleave` executes the accesses in the order of any schedule. Accesses are sequentially consistent, which C++ guarantees to programs without data races; callables do not access the memory; `generate` (shared generator) is left out | the lists are shown to do what the functions of Model/Algorithms, Tiling and Ein do (`C88_call`); without conflicts every thread is where it would be alone (invariant `Alone`), so the schedule does not matter; tiles and pieces from C77 and C66. Spec/Threads.lean: `Conflict`, `NoRace` ([intro.races]), `Finishes`, `Changes`, `LooksAt`, `Valid`, `Independent` |
| C89 | Model/Mixed.lean: one memory for each element type (`TypedMem`), expressions with typed operands and operators that give `none` where C++ leaves the result undefined (`MixedExpr`), `mixedReduce`, `equalBetween`. The loop bounds are those of Model/Ein, which do not depend on values | `foldlM_mixed`: the loop acts on the cells of the result separately, since the right-hand side does not read them; the first undefined step of any cell makes all undefined. `C89_one_type`: with one type and total operators this is `einReduce`. Spec/Mixed.lean: `mixedValue`, `MixedInput`, `foldDefined`, `asInt32` |
| C90 | Model/NullViews.lean: `forEachValueAssert`, `copyAsserts`, `equalAsserts`, `eqAsserts`, from the assertions in Model/Loops and `copyAssert` | optimizing shapes keeps the product of the extents; C16 for the bounds, C21 and C22 for the views. Spec/NullViews.lean: `Backed`. Counterexamples for `reorder` and `empty()` |
| C91 | Model/KernelsFloat.lean: the kernels operation by operation over any arithmetic with comparisons and literals; `float32Kernel` (Spec/KernelsFloat.lean) is binary32. No fused operations or excess precision. `C91_exact` ties the operations to the exact kernels of C62 | error bounds are added up operation by operation (`Near.add`, `Near.mul`; constants evaluated by the kernel); exact kernels are Lipschitz with constant 2 (each piece by its difference quotient), positions have the error of C84, at most `N` weights are not zero, and the exact sums are at least 1/4 (`Lobes.sum_ge`). `box` is not continuous: `C91_box_counterexample` |
| C92 | the model of C41–C43 (the assertions are separate Boolean functions there); bounds conditions are Spec/EinAsserts.lean | both directions: what `gather_dims` finds, as values; for the exactness the first and the last index of the loops |
| C93 | `benchmark`, `relativeError`, `exceeds`, `matrixProgram`, `convolutionProgram` (Model/ExamplePrograms.lean), with the versions of C52–C54; binary32 and binary64 with infinities and NaN are `ieeeFloat`, `ieeeDouble` (Spec/ExamplePrograms.lean) | eight versions add in the order of the reference, so the results are equal (C52); the z-order version adds blocks of 256 (C53), and for non-negative products both sums have a relative error, at most 1536 and 261 roundings, together below 92e-6 of the tolerance 100e-6 (`Spec.Rounds.block_sums`). The two versions of `relu` differ on NaN only, which the comparison does not see. `benchmark`: the rounding errors of each trial, by induction over the trials |
| C94 | the model of C41, without the hypothesis that operands are separate from the result; `NotReadAfter` is Spec/EinInPlace.lean | as C41, where each step may use that earlier steps did not write what it reads. `C94_copy`: the run is a function on addresses (`copied`), whose fixed behaviour on all contents is compared with the documented one, both directions |
| C95 | the models of C15, C58 and C74; the conditions are Spec/Overlap.lean | C61 gives the order of the destinations; induction over the list of assignments with "an earlier destination is not a later source". Exactness: a source overwritten before it is copied makes two destinations equal for all contents. Restrict: `restrict_copy_same` of C74 |
| C96 | Model/EinPrograms.lean: the programs of README.md:285-325 and the `epsilon` of test/ein_reduce.cpp on the model of C41 | sums and maxima over any list of loop variables (`envs`) from C41 and C65; orthogonality by `ring` after both reductions; the inverse transform from the geometric sum of a root of unity. Elements are exact numbers |
| C97 | the array model of C31 (`nextBlock` counts the calls of `allocate`, inline storage included) | table `blocksBy` in Spec/ArrayMemory.lean, from the arguments only; every function either keeps the counter and all objects (`Still`) or is followed to its calls of `allocate`; `swap` by cases on the two allocators. The table for `swap` is for arrays that own memory if they need it (`SwapSettled`), which `C97_settled` proves of all programs if the default shape needs no memory |
| C98 | Model/EinTiling.lean: the loops of README.md:328-345 for results of any rank, on top of the tiles of C77, the typed crops of C83 and `ein_reduce` with assertions (C92) | a crop of the result satisfies the preconditions and assertions of `ein_reduce`, and the loop indices for an element are the same as for the whole array (`loopIndex_einTile`); one tile by C19 and C41, all tiles by induction, counting the tiles with an element. The result must have distinct indices and no stride 0 (finding 80) |
| C99 | `boxOp` of Model/KernelsFloat.lean (C91) in binary32 (Spec/RoundingBinary.lean), in the program of C85 | rounding keeps the range [-1/2, 1/2], so the pixel nearest to the rounded position has the value 1 (`nearest_half`, `box_near`); that pixel is in the image because the rounded position is at least half a new pixel from its ends, for new sizes up to 2^21 (`box_position`); other pixels by the error bound of C84; the program by C85_rounding with condition number 1 (`box_stages`). Necessity of a bound: `C91_box_counterexample` |
| C100 | Model/ResampleBenchmark.lean: `benchmarkTable`, `resampleCall`, `benchmarkRows`, `runBenchmarks`, `resampleBenchmarkMain`; `resample` of C51, `benchmark` of C93. `std::atoi` and the text of the output are not modelled; the addresses of a call are a parameter | one call by C51 (`call_zero`), repeated calls with the invariant that both images are zero (`repeat_calls`, `rows_run`), the printed time by the trials of C93 and one more rounding (`time_printed`); kernels by C62 and C62_lanczos (exact), by C91 and C99 (binary32); addresses by C85_placement. `lanczos<3>` in binary32 is a hypothesis (`FloatWeights`), as `std::sin` is not modelled in floating point |
| C101 | no new model: `resizeImage` of C85 (`resizeExact` fixes the addresses by C85_placement). The relations of images are in Spec/ResampleSymmetry.lean | the result of C85 is rewritten along the bijections of the samples (`resized_mirror_columns`, `resized_transpose`), compared term by term (`resized_mono`, `resized_congr`), and the weights of a gradient by C62 `Reconstructs` (`weights_linear`); the binary32 counterexample by the weights of `box_program` (C99) |
| C102 | Model/TileLevels.lean: `splitLevels` for one interval, `tileLevels` for arrays (the loops of C77 on tiles), bodies `fillAll`, `copyAll`, `updateAll`; conditions on factors in Spec/TileLevels.lean (`AtEach` goes through the extents that each level can meet) | extents of pieces (`cut_split`, `cut_split_extent`), divergence by C24 and C25, `flatMap_dynPieces` for the merge; arrays by induction over levels (`tileLevels_induction`) from C77 |
| C103 | the program of C85 with `box` exactly and with `boxOp` in binary32; blocks in Spec/BoxFactors.lean | distances of pixels from the position are `t / (2q)` with an integer `t` of magnitude at most `q-1` in the block and at least `q+1` outside (`block_distance`), so the tolerance of C99 cannot move a pixel into or out of the block; numbers of at most 24 bits are not rounded (`dyadic_float`), so the sums of the two passes are exact (`block_kernel`); the round trip in binary32 (`C103_float_round_trip`) from the exact sums of both directions |
| C104 | Model/EinLevels.lean: `reduceLevels`, the loops of C98 in which the tile, with its type and address, is the array of the next level; conditions on factors as in C102 | a tile of a result satisfies what C98 needs of a result (`tileInput_tile`), so the inner levels are one tile's `fill` and `ein_reduce` by induction and C98 does the outer level (`reduceLevels_step`); the extents of the inner levels by `levels_inner` of C102 |
| C105 | Model/TestMain.lean: test/main.cpp; a test is a function of the state of the program that ends with success, with an exception or not at all (`none`: undefined behaviour or no end); exceptions that do not derive from `std::exception` and the texts around names are left out. Patterns as words in Spec/TestMain.lean | the loop that skips equal characters keeps the meaning (`skip_matches`), then induction over pattern and string; the loop over the tests by induction (`Runs`) |
| C106 | Model/TestPattern.lean: test/test.h:133-171 on the model of `transform_index` and `for_each_index`; conversion to `T` and addition in `T` are arbitrary functions; reading past `pattern_basis` is `none` | `C19_transform_index`; different numbers by linear arithmetic from the conditions of `NoCarry` in Spec/TestPattern.lean, dim by dim from the last; `C15_copy` for the check after a copy |
| C107 | Model/TestCopies.lean: `memcpy` (overlapping regions are undefined), the four copies and the tests of test/performance.cpp; how often `benchmark` calls its function after the first call and what it returns are arbitrary; the failure messages are reduced to the name of the check | each copy is a list of blocks that together cover the elements of the destination (`blocks_copy`); by induction over the blocks an element gets its value from the last block that covers it, and sources never change; then `C15_copy`, `C90_copy`, `C106_fill`, `C106_check` |
| C108 | Model/ThreadPrograms.lean: threads of several calls (the accesses of the calls of C88 one after the other), queues and phases; starting and joining threads is not part of the library and is only modelled by the interleaving and by its end | the accesses of a program are those of its calls (`C88_call`), so separate programs do not race, and a run without races equals the programs one after the other (`interleave_list`); queues by regrouping calls; tiles of tiles are apart because `for_each_value` of the array visits each element once (`C14_nodup`, `C102_for_each_value`); reductions by `C98_fill`, `C98_no_fill` |
| C109 | Model/CopyChains.lean: `copyAlong`, `exchange` on the `copy` of C15; otherwise no new model. `Relabels`, `newShape`, `newIndex`, `CopyOf` in Spec/Relabel.lean | both runs are described by C14, C15, C17 and C19 and compared element by element along the bijection of the indices (`mem_ext_elems`); transposes relabel by C22, reversed dims by induction over the dims; `generate` by C61: both lists of addresses increase and have the same members; chains by induction |

All properties but C53, C56 and C68 have the status "proved" in `MANIFEST.json`.  Where the code violates the natural statement
of a property, the statement in `properties.jsonl` says under which conditions it holds and the
parenthesis in it is proved as a counterexample.

## Seeded bugs

For every model file realistic bugs were put into a scratch copy of the model, one at a time (off-by-one,
wrong sign, swapped arguments, dropped condition, wrong loop order, missing reset, …), and every property
theorem was re-checked against the changed model.  Each attempt is a line in `seeded/LOG.jsonl`: the
definition, the edit, the claim it breaks, the theorems that no longer check.  Where a broken claim was
still provable the theorem was tightened (`tightened` in the log).

## Findings (code vs. property)

Each is proved as a theorem if a name is given; the others follow from reading the code.

1. Negative extents: a range-for over an interval with negative extent never meets its end test
   (`C11_negative_extent_diverges`); two negative extents give a positive `size()`
   (`C03_negative_extents_counterexample`), reachable through `image.h` `crop`
   (`C37_disjoint_counterexample`: rectangle disjoint in both x and y).
2. `split(...)`: `begin() + size() != end()` when the factor does not divide the extent
   (`C26_begin_add_size_counterexample`); `split<N>` with `extent < N` diverges in release builds
   (`C25_small_diverges`).
3. `is_one_to_one`, `is_compact` are only necessary conditions (`C08_true_not_injective_counterexample`,
   `C09_compact_with_hole_counterexample`).
4. An empty shape with a negative stride gives a null buffer but a non-null `base_`
   (`nullptr - flat_min`), or even a positive `flat_extent()`
   (`C31_empty_negative_stride_counterexample`).
5. Moved-from arrays of all-static shape type keep a non-empty shape with a null base
   (`C33_moved_from_counterexample`).
6. `move_reinterpret_shape` asserts with `offset` instead of `-offset` (`C48_offset_counterexample`,
   `C48_rejected_counterexample`).  Between two static shapes it leaves `from` with its old shape and a
   smaller buffer (`C48_moved_from_counterexample`); `new_shape` is not resolved.
7. `reshape` for shape types with static extent and dynamic min converts the intersection to a
   type with the static extent.
8. `make_compact(shape<dense_dim<dynamic,4>, dim<dynamic,3>>)` has strides (1, 16)
   (`C29_gap_counterexample`); with a compile-time negative stride the result aliases
   (`C29_negative_stride_counterexample`).
9. `enable_if_permutation` accepts `1,1,2,2,3` for rank 5 (`C23_non_permutation_accepted`).
10. z-order calls the function when a range is empty (`C40_empty_range_counterexample`).
11. `ein<i,i>(A)` checks only the first dim (`C42_repeat_counterexample`).  A callable operand's loop
    index that no array uses loops once with 0; result dims of stride 0 are treated as reduction dims.
12. Dividing a `rational` by a negative one gives a negative denominator, after which comparisons and
    `floor` are wrong (`C45_negative_counterexample`).
13. `resample` splits by 64 without requiring 64 output rows: fewer fail the assertion or never end
    (`C51_small_counterexample`).
14. Exceptions thrown by element constructors leak the buffer (`array(shape)`, `array(const array&)`:
    `C56_new_leaks`, `C56_copy_leaks`) or make a destructor destroy elements that were never constructed
    (`C56_fill_faults`, `C56_copy_faults`, `C56_assign_faults`, `C56_assign_fill_faults`).  After a failed
    allocation `assign(shape, value)` with the same shape has no effect (`C56_retry_counterexample`).
    No operation recovers from an exception of a constructor of an element (`C56_constructor`: all statements,
    among them `reshape`, `swap`, `make_copy`).
15. Non-injective shapes construct and destroy the same element several times (balanced).
16. `is_in_range(_)` compares against the placeholder interval `[0,-2]`, so it is false for a dim with
    min > 0 (`C21_placeholder_rejected_counterexample`).
17. `move()` from a broadcast (stride 0) source copies moved-from values (`C49_move_broadcast_counterexample`).
18. A static parameter equal to -9 means "dynamic" (`C28_minus_nine_counterexample`).
19. `is_compatible` is false for unresolved strides although the conversion is accepted
    (`C28_is_compatible_incomplete_counterexample`); `is_explicitly_compatible` only compiles for equal ranks,
    as `enable_if_shapes_explicitly_compatible` compares `ShapeSrc::rank()` with itself.
20. `convert_shape(ref)` to a higher rank leaves the strides of new dims unresolved.
21. Copy assignment from a moved-from array with dynamic strides onto an allocated array fails a debug
    assertion (`C31_moved_from_source_counterexample`).
22. `reshape` of a null-base array with two or more positive mins fails the debug assertion
    `shape.empty()` (`C31_reshape_empty_counterexample`); with disjoint shapes it forms an out-of-bounds pointer.
23. `assign(shape, value)` and `reshape` on a hollow (moved-from, all-static) array write through null
    (`C31_hollow_counterexample`).
24. Move assignment swaps, so the source holds the old contents of the destination (`C33_move_assign`).
25. Self-swap with a non-propagating allocator fails an assertion for non-empty default shapes
    (`C31_self_swap_counterexample`).
26. The matrix and padded-chunky `for_each_value` do not check for a null base (`C39_null_base`).
27. The chunky run-time path without fusion visits values x-fastest (`C38_general_order`).
28. `auto_allocator::select_on_container_copy_construction` is static with the wrong signature, so
    `allocator_traits` never calls it.
29. `euclidean_mod(a, INT_MIN)` is undefined via `std::abs` (`C44_mod_intMin_counterexample`).
30. `build_kernels` with all-zero weights fails its assertion or loops forever
    (`C46_zero_kernel_counterexample`).
31. `size()` of an empty shape can overflow (extents 0, 2^40, 2^40), `max()` overflows for an interval
    ending at the largest `index_t`, `flat_extent()` overflows at a span of exactly the largest `index_t`
    (`C47_…_counterexample`).  `next_power_of_two` overflows for x > 2^62 (not modelled).
32. `is_subset_of` is a bound check on flat ranges, not set inclusion (`C10_not_set_inclusion_counterexample`).
33. `make_move(array&&, shape, alloc)` with the shape and allocator of the source copies every element instead
    of moving (`return src` of a reference copies before C++20), and the copy has the allocator
    `select_on_container_copy_construction` gives, not `alloc` (`C55_rvalue_copies`,
    `C55_rvalue_counterexample`; array.h:2880-2887, Makefile: `-std=c++14`).  For move-only elements it does not
    compile.  `make_compact_move(array&&, …)` (2899-2902) passes `src` as an lvalue, so it never reaches that
    overload and always allocates.
34. `multiply_reduce_tiles_z_order` (matrix.cpp:271-332) adds the blocks of `k` after the first once for each tile
    that has the element: with `K > 256` and rows not divisible by 4 or columns not divisible by 24 the
    result is wrong (`C53_overlap_counterexample`: 258 instead of 257), although the comment at 312-316 says
    that this is avoided.  The example's own check uses sizes that are divisible.  With `K = 0`, `C` is not
    written (`C53_empty_counterexample`).  With an empty `C`, finding 10 makes it write outside `C` in release
    builds; its prefetches form references up to 8 columns past the end of `A`.
35. The tiled `multiply` versions need at least one tile of rows (`C52_small_counterexample`), see finding 2.
36. `conv2d_naive` computes `max(v, 0)`, `conv2d_tiled` `max(0, v)`: they differ for a NaN
    (`C54_nan_counterexample`).  `conv2d_tiled` needs at least one tile of columns (`C54_small_counterexample`).
37. `move_reinterpret_shape` of an array whose elements are in the buffer of its `auto_allocator` fails
    `assert(result.alloc_ == from.get_allocator())`, and without assertions leaves the result with a pointer
    into `from` (`C57_reinterpret_counterexample`).
38. `generate`, `transform_index` and `transform_indices` (array.h:2918-2954) take a forwarding reference and
    capture `g = std::move(g)`: a function object that the caller passes as lvalue is moved from.  The lambdas are
    not `mutable`, so that generators with a non-const call operator (counters, random number engines) do not
    compile.  The overloads of `transform_index` and `transform_indices` for arrays name `array<T, Shape>`, so
    that arrays with another allocator are not accepted.  The moves are modelled in C79: a lvalue given to `generate` twice gives
    other results the second time (`C79_moved_from_counterexample`), and it is moved from even if the array is empty.  So do
    `for_all_indices`, `for_each_index` with a loop order, and `for_each_value` of matrices and padded chunky images, but not
    `for_each_index` and the other `for_each_value`: whether a counting function object keeps its count depends on the type of the
    shape.  That non-const call operators do not compile, and the types of arrays, are read, not modelled.
39. `copy` and `move` between overlapping views of one array give results that depend on the order of the loops,
    which is not documented (`C58_overlap_counterexample`).
40. The documentation of `interval::operator==` (array.h:326-327) says that intervals are equal if they contain the
    same indices.  Empty intervals with different mins, `range(0, 0)` and `range(5, 5)`, are not equal
    (`C59_equal_empty_counterexample`).
41. `dynamic_optimize_shape` sorts the dims by signed stride (array.h:1749, 1774), so that dims with negative
    stride become the innermost loops.  The doc comments say that loops are optimized for memory access order; a
    vertically flipped image is traversed down its columns (`C61_backward_counterexample`).
42. `box` is 1 at both ends of its interval, so halfway between two samples both count fully, and although the
    type is called `continuous_kernel` it is not continuous (`C62_box_counterexample`, `C62_box_not_continuous`).
    The weights of `lanczos` do not add up to 1 (`C62_lanczos_counterexample`).  Both are corrected by the division
    by the sum in `build_kernels`, and the sum is positive (`C62_lanczos_sum_positive`).
43. `array(shape, value, alloc)` and `array(const array&, alloc)` (array.h:2359-2362, 2387) delegate to
    `array(alloc)`, which default constructs all elements if the extents are compile-time constants (or the rank is
    0); they are destroyed at once (`C63_fill_static`).
44. `swap` of arrays that have equal allocators which do not propagate and are not equal to a default constructed
    one goes through a temporary array with a default constructed allocator: the elements of the second array are
    moved twice, although the pointers could be exchanged, and `swap` may throw (`C63_swap_same_allocator`).
    `std::swap`-like functions of containers require equal allocators and exchange pointers.
45. `make_move(array&&, shape)` with the shape the array has copies every element (`C63_make_move_copies`), see
    finding 33.
46. test/array_lifetime.cpp:44: `custom_alloc(int state = 0) : state_(0)` ignores its argument, so the tests with
    `movable_custom_alloc(1)` do not test unequal allocators.  Read, not modelled.
47. A crop of a crop is not limited by the first crop: `a(r(6, 8))(r(5, 12))` is `a(r(5, 12))` (`C64_crop_twice`);
    no crop is checked against the shape, in any build mode.  `crop` of image.h does intersect (`C64_image_crop`).
48. `ein_reduce(ein<i>(x) += ein<i, j>(A) + ein<i>(b))` adds `b` once for every `j` (`C65_add_counterexample`): a sum on
    the right hand side is not the sum of the reductions unless both terms use the same loop indices.  This is what the
    loops of the documentation do, but not Einstein notation as written in mathematics.
49. Splitting a reduction loop with `split<N>` is wrong if `N` does not divide the extent
    (`C66_overlap_counterexample`): the documentation of `split<>` mentions the overlap, that of `ein_reduce` ("by
    splitting loops appropriately") does not.
50. Chunky images with padded pixels and few rows have their rows inside of the pixels (`C68_strides`,
    `C68_counterexample`): `chunky_image_shape<C, S>({w, h, {}})` with `C < S` and `h * C <= S` gets stride `C` in `y`
    instead of `w * S`, because `find_stride` takes the smallest stride at which nothing overlaps.  The elements are
    distinct, but it is not the layout documented at image.h:36-40, and `chunky_image_ref<T, 1, 4>(im.base(), {w, h, 1})`
    onto an image with four channels and two to four rows reads and writes wrong pixels (`C68_view`; the same
    construction is used with 30 rows in test/image.cpp:164).
51. In release builds `b = a` with a moved-from `a` whose strides are dynamic leaves `b != a`
    (`C69_moved_from_counterexample`), although both are empty and `equal`: `allocate` makes only the strides of `b`
    known.  In debug builds an assertion fails (`C31_moved_from_source_counterexample`).
52. `uninitialized_auto_allocator<T, N>` has the default alignment `sizeof(T)` (array.h:3235), `auto_allocator<T, N>` has
    `alignof(T)` (array.h:3114).  `alignas` needs a power of two, so for trivial types of another size (for example a
    struct of three `float`s) the default does not compile.  The static function
    `uninitialized_allocator::select_on_container_copy_construction` (array.h:3196) could not be compiled if it were used,
    because it returns the base class; as in finding 28 `std::allocator_traits` does not find it.  The first is
    `C87_uninitialized_counterexample`; the second is not part of the model.
53. The loops of `for_each_value` and of copies form pointers outside of the array, which is undefined behaviour in C++
    even if they are not used ([expr.add]/4): `advance` is called after the last step of each dim (array.h:1454-1457,
    1465-1469 with 1426-1434).  `C73_iff` says when: for a shape with a negative stride or a gap.  For example filling a
    vector with stride 2 and 3 elements, which has memory for 5, forms a pointer to element 6; traversing a row of a dense
    column major array does the same (`C73_row_counterexample`), as does copying a dense array to another dim order
    (`C73_copy_counterexample`).  No compiler is known to make use of this, and nothing is read or written there (C06).
54. `copy` and `move` of a view to itself or to overlapping elements is undefined behaviour, because the pointers of the inner
    loop are `__restrict__` (array.h:1438-1446).  The documentation of `copy` does not ask for views without common elements.
    `C74_self`: `copy(a, a)` breaks the promise for all arrays whose smallest stride is 1; it is kept if the smallest stride is
    not 1, where the loop has no restricted pointers.  Between different arrays nothing can go wrong (`C74_program`).
55. `x.assign(shape, x(i...))` reads a destroyed or released element (array.h:2527-2537: `destroy` or `deallocate` come before
    `construct(value)`, and `value` is a reference); `C75_own` shows it for all arrays.  `std::vector::assign` has the same
    restriction, but documents it.  `fill(x, x(i...))` is fine, as the lambda holds a copy.
56. The documentation of `swap` says "zero copies or moves of individual elements" (array.h:2689-2690).  This needs allocators
    that propagate or whose three comparisons (of `other` with a default constructed one, of `*this` with `other`, twice) are equal;
    otherwise elements are moved one by one, and pointers to elements do not follow (`C76_swap_counterexample`, for the buffer of an
    `auto_allocator`).  After `a = std::move(b)` pointers to the old elements of `a` are valid and point into `b` (`C76_kept`).
57. An exception of the allocator in `operator=`, `assign` or `clear` leaves an array with no memory and a shape that may have
    elements (`shape_ = ...` comes before `allocate`, array.h:2482-2537).  `empty()` is false then, and accesses are undefined; only
    `base() == nullptr` tells.  The old elements are gone, so there is the basic guarantee at best (`C78_emptied`).  `reshape` has
    the strong guarantee if the allocator throws and memory can be taken over (`C78_reshape`); with an exception of an assignment
    of an element it leaves some elements moved from, which cannot be told from the others.
58. (C80) `reorder` may drop a dim without indices.  The view then has elements though the array has none, and `empty()` is
    false for it.  The assertion in `reinterpret_shape` (array.h:3027) compares flat ranges: it fails if the stride of the dropped
    dim is not 0, and holds if it is 0 (`C80_reorder_empty_counterexample`).  Arrays that own no memory are not affected, because
    their base pointer is null.
59. (C81) `fuse` computes `inner.min() + outer.min() * inner.extent()` (array.h:1738-1742).  The loops do not use the result, as
    offsets are relative to the first element, but it can overflow, which is undefined behaviour: `fill` of a dense array of 16 by 2
    elements whose second min is 2^60 (`C81_fuse_min_counterexample`).  With `NDARRAY_INT_INDICES` moderate sizes are enough: two rows
    of 65536 elements cropped at row 40000 (`C81_fuse_min_int_counterexample`).  `can_fuse` (1734-1736) multiplies the stride by the
    extent and overflows for extent 2 and stride 2^62, although all offsets are representable (`C81_can_fuse_counterexample`).  A
    `split` overflows for intervals that end less than the inner extent before the largest integer (`C81_split_counterexample`);
    `next_power_of_two` (z_order.h:30-37) overflows, or does not end from C++20 on, for extents above a quarter of the range.
60. (C83) `shape(OtherDims... other_dims)` (array.h:1137-1138) takes any object for a dim, so a shape of rank 1 claims to be
    constructible from anything (`C83_shapes_counterexample`): `enable_if_shapes_compatible` lets `array_ref`s of any rank
    be converted to rank 1, and the error appears inside of the library.
61. (C83) test/errors.cpp:67 expects an error for `transpose<0>(s)`, which compiles, as transposing the first dims only is
    documented (array.h:1330-1343); 73-82 use `s4`, which is not declared, so their
    errors say nothing about `transpose`. The Makefile (line 33) checks where
    errors are reported, not that each function has one.
62. (C83) `reconcile_dim` compares the static bounds of the first dim with the others, not these with each other: a loop
    over dims of static extents 3 and 4 compiles if the first dim of the loop is dynamic (`C83_reconcile_incomplete`).
63. (C84) build_kernels computes positions of inputs in `float` and only then subtracts (resample.h:122, 134): the error of the
    weights grows with the coordinates, and from coordinate 2^24 on positions between pixels are lost
    (`C84_weight_counterexample`: equal weights instead of 3/4 and 1/4). Subtracting in rational numbers first would not
    have this error. For coordinates below 1000 the error of linear weights is below 0.0012 (example).
64. (C85) resample.cpp converts to integers by truncation, so weights whose rounded sum is just below 1 darken an image: in
    binary32 with the linear kernel a row of five pixels of value 1 resized to a width of 4 becomes 0, 1, 1, 0
    (`C85_constant_counterexample`; 0.99999994 is truncated to 0). Rounding (adding 0.5) would avoid it. With 32-bit
    components `max_quantum` is rounded up to 2^32, and the conversion of a white pixel is undefined behaviour
    (`C85_quantum32_counterexample`). A new height below 64 fails as it does for C51 (`C85_small_counterexample`), and an unknown name of a
    kernel gives an empty `std::function`, which throws when called (`C85_kernels`).
65. (C86) Dims are sorted by stride only, so a dim of extent 1 with the stride of another dim may come between dims that could be
    fused: an image with one channel in chunky order (x stride 1, y stride w, c extent 1 and stride 1) is visited row by row,
    although it has no gaps (`C86_unit_counterexample`). Only the speed is affected. Dropping dims of extent 1 before sorting
    would avoid it.
66. (C87) `reinterpret<U>` compiles for all types of equal sizes, but by the rules of C++ its elements may be accessed only if `U`
    is the element type up to signedness or a type for bytes (`C87_types`). test/array_ref.cpp:39-61 reads an array of `int` through
    `reinterpret<float>`, which is undefined behaviour (`C87_float_counterexample`); the Makefile compiles it with
    `-fstrict-aliasing`. An `enable_if` on the types, or a comment, would help.
67. (C87) `operator==` of `auto_allocator` (array.h:3165-3179) has the second parameter `auto_allocator<U, U_N, U_A>`, without a
    parameter for the base allocator. Allocators with a base allocator other than `std::allocator` cannot be compared, so
    arrays with them cannot be moved, swapped or assigned (`C87_compare`, `C87_compare_counterexample`; not covered by the tests, which
    use the default). For `Alignment` below `alignof(T)` the buffer may be misaligned (`C87_auto_small`); it is not rejected.
    `Alignment` is not passed on to the base allocator: larger arrays have the alignment of `T` only.
68. (C89) `min` and `max` of operands with different element types do not compile (for example `min(ein<i>(a), ein<i>(b))`
    with `a` of `float` and `b` of `double`): `internal::min` and `internal::max` (array.h:170-178) have one template
    parameter for both arguments, so its deduction fails when `operator()` (ein_reduce.h:170-182) is instantiated. The
    other operators use the usual arithmetic conversions. A `cast<T>` of one operand is needed. The overloads of `min` and
    `max` for operands accept any two expressions, so the error appears inside the library. (Read from the code; the
    rules of template argument deduction are not modelled.)
69. (C90) `array_ref::empty()` (array.h:2141) is true for every null ref, but `size()` and the assertions of `fill`, `copy` and
    `equal` look at the shape only. A default-constructed `array_ref<T, shape<dim<0, 3>>>` is empty, has size 3, and fails
    the assertion of `fill` (`C90_empty_counterexample`); without assertions `fill` does nothing and `equal` of two such
    refs is true. Guarding a call by `!a.empty()` is right. `reorder` of a null ref may give a null ref with elements
    (`C90_reorder_counterexample`).
70. (C91) With the `box` kernel rounding can lose all samples: enlarging an image from 2 to 24623797 pixels, the position
    of the last pixel, 1.49999999..., is rounded to 1.5000001, both distances are above 1/2, all weights are zero and the
    assertion of `build_kernels` (resample.h:146) fails (`C91_box_counterexample`); without assertions the kernel is empty
    and the pixel is zero. In exact arithmetic there is always a sample within 1/2 (C62). The other kernels are continuous
    and safe for the sizes of C91. The witness has more than 2^24 output pixels; no smaller one is known.
71. (C93) `benchmark` (benchmark.h:41) computes `std::ceil(min_time * 2 / time_per_iteration)` and converts it to `long`. If the
    clock does not advance during a trial (a coarse clock, or an operation that the compiler removed), this is infinity,
    and the conversion is undefined (`C93_benchmark_counterexample`). For all other times it is defined (`C93_benchmark`): numbers of
    iterations grow at most tenfold in each of ten trials, which fits the `int` of the loop.
72. (C93) `relative_error(a, b) = abs(a - b) / max(a, b)` is not positive if both numbers are negative, and NaN if one of them is
    NaN or +infinity. In these cases any difference is accepted (`C93_blind_counterexample`). The inputs of the programs are in [0, 1],
    so only NaN and infinity matter: a version of `multiply` that returned NaN or infinity everywhere would pass. In
    conv2d_relu.cpp the outputs of the two versions do differ if the sum is NaN (finding 36), which is not reported. Dividing by
    `max(abs(a), abs(b))` and testing `!(error <= tolerance)` would help. conv2d_relu.cpp returns 0 even if it reports differences.
73. (C93) The margin of matrix.cpp is small: 92e-6 is what the rounding errors can amount to, for the fixed order of the code, and
    the tolerance is 1e-4. The Makefile compiles with `-ffast-math`, which permits any order of summation; then two sums
    of 1536 terms may differ by nearly 2 * 1536 * 2^-24 = 183e-6 of their value. `C93_matrix` covers the order of the code only.
74. (C94) Nothing in ein_reduce.h says whether the result may share elements with operands. `C94_fold` and `C94_elementwise` say when it may,
    `C94_shift`, `C94_transpose` and `C94_product_counterexample` what goes wrong otherwise, without any assertion. A sentence in the
    documentation of `ein_reduce` would help.
75. (C95) Whether `copy` and `move` may be used to scroll or repack in place is not documented, and no assertion looks at it. The loops go
    through `dst` in the order of its addresses, so copying towards the start of an array works and copying away from it repeats elements.
    If all rows are full the loops are fused to one dense loop with `__restrict__` pointers, and then the compiler may assume that the
    overlap does not exist (`C95_full_rows`); scrolling a part with shorter rows is fine (`C95_scroll`).
76. (C96) The program of README.md:306-310 for the "maximum of each x-y plane" starts with `max_xy` full of zeros (`dense_array<float, 1>
    max_xy({20})`; test/readme.cpp:187 writes the 0 explicitly), so it computes `max(0, maximum)`. For a plane of negative elements the
    result is 0 (`C96_max_counterexample`, `C96_max_initial`). test/ein_reduce.cpp:296 starts with the smallest `int`, as it should be.
77. (C96) The loops `for (index_t j : T.i())` of test/ein_reduce.cpp:285, 302 and 320 run over the first dim of `T` (4 indices) where the results
    have one element for each of the 5 indices of the second: the last element is not looked at. `T.j()` is meant.
78. (C97) An array without elements can allocate memory: `flat_extent` (array.h:1233-1236) of a shape with an extent 0 is the range of offsets of the
    other dims less one stride, not 0, although it is documented as the extent of the valid offsets, of which there are none. An array of extents 100, 100 and 0
    asks for 9999 elements (`C97_empty_memory`). It is given back correctly.
79. (C97) With a shape type all of whose extents are constants, `array(shape, value)` with other strides than the default ones and
    `array(const array&, alloc)` allocate, construct, destroy and give back an array of the default shape first (`C97_fill_static`). `swap` of two arrays of the same
    non-default allocator that does not propagate allocates memory for a copy of the second (`C97_swap_same_allocator`).
80. (C98) Where tiles of `split<N>` overlap (`N` does not divide the extent), `ein_reduce(ein<…>(C_tile) += …)` without `fill` counts some elements twice
    (`C98_overlap_counterexample`); the README's program fills each tile, which makes it right in all cases (`C98_fill`), but does not say that it is needed.
    Along a dim of the result with stride 0 the assertions of `ein_reduce` demand that operands have exactly its bounds (C92), so such a dim cannot be tiled.
81. (C99) `box` is safe in `float` for new sizes up to 2^21 (`C99_program`); a search outside the proof finds the first failing sizes just above 2^24
    (7 pixels enlarged to 16777221; C91_box_counterexample proves one). Where a position is within the tolerance of the middle between two pixels,
    rounding decides whether one pixel or both are averaged; in exact arithmetic it is both, at the middle only (`BoxSamples`).
82. (C100) The program that measures `resample` never writes its input: it resamples an image of zeros into zeros (`C100_run`), so the times are those for zero
    data (for `float` this is the common case without subnormal numbers). It does not check its arguments: `benchmark a 1 b 64` divides by zero
    (`C100_zero_counterexample`), and an output height below 64 fails an assertion or makes a tile outside of the image (`C100_small_counterexample`, finding of C51).
83. (C101) With `interpolating_cubic`, an edge from 100 to 200 becomes 93 and 206 next to it (`C101_cubic_counterexample`); the program clamps to the range of the
    type only. With `box` in `float` rounding can break ties differently on the two sides of an image: 17 columns with a bright one in the middle,
    resized to 14 columns, give a black column on one side of the middle and a gray one (at least 99) on the other (`C101_float_counterexample`), where exact arithmetic gives
    two equal columns.
84. (C102) `split<N>` inside of a loop over `split(v, n)` works only if the remainder of the extent by `n` is 0 or at least `N`, although `n >= N` and `v.extent() >= N`
    hold: with 10 indices, `n = 4` and `N = 3` the assertion of array.h:617 fails in the last outer iteration, and without assertions the inner loop never ends
    (`C102_mixed_counterexample`). The other order, `split(v, n)` inside of `split<N>`, always works.
85. (C103) A white 8-bit image made smaller by the factor 9 with `box` is not white: in `float`, nine times 255 * (1/9) add up to 254.99998, and the conversion to
    integers (the copy of resample.cpp:69) drops the fraction instead of rounding, so all components become 254 (`C103_white_counterexample`). Powers of two are exact. Making an image
    smaller in two steps drops fractions twice: columns 0, 1, 1, 2 become 1 in one step and 0 in two, even in exact arithmetic (`C103_steps_counterexample`).
86. (C105) A filter that matches no test, for example because of a typing error, makes the test program return 0 (`C105_no_test_counterexample`).
87. (C106) The pattern of the tests carries for more than 30 columns: in the arrays of 100x100x100 (test/performance.cpp), 100x80x3 and 40x30 with 1 to 4 channels
    (test/image.cpp), the elements (30, 0, 0) and (0, 1, 0) have the same number, so a copy that exchanges them passes (`C106_blind_counterexample`). Arrays of
    rank above 5 would make it read past the end of its factors (`C106_rank_counterexample`).
88. (C106, read, not modelled) test/image.cpp:51 checks `crop2_xy` a second time instead of `out_of_bounds_crop_xy`, and test/image.cpp:91-93 copies into `dest` a second time
    and checks it instead of `dest_cropped`, so neither the elements of a crop out of bounds nor a copy into a cropped image are tested there.
