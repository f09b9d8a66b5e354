{"id": "C01", "title": "Flat offset formula", "statement": "Indexing a shape with a full index tuple yields sum over the dimensions of (index - min) * stride; the min index maps to offset 0, and moving one step in one dimension moves the offset by exactly that dimension's stride.", "quantifier": "every rank, every list of dims (any mins, extents, strides incl. zero/negative) and every index tuple", "why_tests_cant": "ranks, mins and strides are unbounded; tests only sample a few shapes", "anchors": ["include/array/array.h: dim::flat_offset, internal::flat_offset, internal::sum, shape::operator[], shape::operator()"]}
{"id": "C02", "title": "In-range indices stay inside the flat extent", "statement": "For a shape with no empty dimension, every in-range index has an offset between flat_min() and flat_max() inclusive, and both bounds are reached by in-range indices, so a buffer of flat_extent() elements starting at data() is exactly large enough for every in-range access.", "quantifier": "every rank, every shape with positive extents and arbitrary (also negative or zero) strides, every in-range index", "why_tests_cant": "memory safety of all index/shape combinations; tests check only a few addresses", "anchors": ["include/array/array.h: internal::flat_min, internal::flat_max, shape::flat_extent, array::allocate, array::data, array_ref::data"]}
{"id": "C03", "title": "size() counts indices; empty() means no index", "statement": "If no extent is negative, size() equals the number of in-range index tuples, and empty() is true exactly when there is no in-range index. (For shapes with an even number of negative extents size() is positive although no index is in range.)", "quantifier": "every rank and all extents", "why_tests_cant": "the count ranges over all ranks and extents", "anchors": ["include/array/array.h: shape::size, shape::empty, internal::product"]}
{"id": "C04", "title": "resolve() fills every unknown stride, keeps everything else and is idempotent", "statement": "After resolve() no stride is unresolved; mins, extents and strides that were already known are unchanged; resolving again changes nothing.", "quantifier": "every rank, every mixture of known and unknown strides with non-negative extents whose stride*extent products fit index_t", "why_tests_cant": "the search over candidate strides interacts with every combination of other dims", "anchors": ["include/array/array.h: shape::resolve, internal::resolve_unknown_strides, internal::find_stride, internal::filter_stride, internal::is_stride_ok, internal::candidate_stride"]}
{"id": "C05", "title": "Automatic strides are dense", "statement": "Resolving a shape with positive extents in which no stride is known gives a shape whose index-to-offset map is a bijection onto [0, size()): no two indices share an offset and no offset in the flat extent is unused (is_compact() and is_one_to_one() are both true).", "quantifier": "every rank, all positive extents", "why_tests_cant": "needs every rank and extent, including extent 1 special cases", "anchors": ["include/array/array.h: shape::resolve, shape::is_compact, shape::is_one_to_one"]}
{"id": "C06", "title": "Automatic strides never overlap known strides", "statement": "If the dims with known strides are pairwise non-overlapping (one spans no more than the stride of the other), then after resolve() all dims are pairwise non-overlapping, and hence distinct in-range indices map to distinct offsets.", "quantifier": "every rank, every mixture of known (possibly negative) and unknown strides", "why_tests_cant": "aliasing would appear only for particular extent/stride combinations", "anchors": ["include/array/array.h: internal::is_stride_ok, internal::find_stride, shape::resolve"]}
{"id": "C07", "title": "Each automatic stride is the smallest admissible candidate", "statement": "resolve() gives each unknown dim, in order from the innermost, the least value among 1 and the spans (|stride|*extent, at least 1) of the dims known so far that does not intersect any of them.", "quantifier": "every rank and every mixture of known/unknown strides", "why_tests_cant": "minimality over all candidates", "anchors": ["include/array/array.h: internal::find_stride, internal::candidate_stride, internal::filter_stride"]}
{"id": "C08", "title": "is_one_to_one() == false proves aliasing", "statement": "If is_one_to_one() returns false (no negative extents), some two different in-range indices share a flat offset. The converse documented in the header (true implies injective) does not hold in general; it holds for shapes whose dims are pairwise nested.", "quantifier": "every shape with non-negative extents", "why_tests_cant": "pigeonhole over all indices", "anchors": ["include/array/array.h: shape::is_one_to_one"]}
{"id": "C09", "title": "is_compact() soundness", "statement": "If every flat offset between flat_min() and flat_max() is addressed by some in-range index then is_compact() returns true; and if the shape is injective and is_compact() returns true then every offset in the flat range is addressed. (For non-injective shapes is_compact() can be true although offsets are unaddressable.)", "quantifier": "every shape with positive extents", "why_tests_cant": "surjectivity onto an unbounded offset range", "anchors": ["include/array/array.h: shape::is_compact"]}
{"id": "C10", "title": "is_subset_of() is the bound check used for reinterpretation", "statement": "If new_shape.is_subset_of(old_shape, -offset) then every element reachable through new_shape from base+offset lies within the flat range reachable through old_shape from base; so set_shape and reinterpret_shape that pass their assertion never address outside the original allocation range.", "quantifier": "all pairs of shapes with positive extents, all offsets", "why_tests_cant": "all pairs of shapes and offsets", "anchors": ["include/array/array.h: shape::is_subset_of, array_ref::set_shape, array::set_shape, reinterpret_shape"]}
{"id": "C11", "title": "Iterating an interval or dim", "statement": "A range-for over an interval or dim with non-negative extent visits exactly the indices min, min+1, ..., max once each, in increasing order, and terminates. With a negative extent the loop never reaches its end (it runs until index_t overflows).", "quantifier": "every min and extent", "why_tests_cant": "unbounded loop lengths; non-termination cannot be tested", "anchors": ["include/array/array.h: index_iterator, interval::begin, interval::end"]}
{"id": "C12", "title": "for_each_index visits every index once, innermost dim fastest", "statement": "for_each_index / for_all_indices (default traits) calls the function exactly once for every in-range index and for no other index, in the order in which dim 0 varies fastest and the last dim slowest.", "quantifier": "every rank and every non-negative extents", "why_tests_cant": "the overload set peels dims one or two at a time; every rank is different code", "anchors": ["include/array/array.h: for_each_index_in_order, internal::for_each_index_in_order_impl, shape_traits::for_each_index, for_each_index, for_all_indices"]}
{"id": "C13", "title": "for_each_index<LoopOrder...> honours the loop order", "statement": "With a permutation as LoopOrder, for_each_index<LoopOrder...> calls the function exactly once per in-range index, passes the coordinates in the shape's dim order, and varies dim LoopOrder[0] fastest, then LoopOrder[1], and so on.", "quantifier": "every rank, every permutation, every shape with non-negative extents", "why_tests_cant": "all permutations of all ranks", "anchors": ["include/array/array.h: for_each_index<LoopOrder...>, for_all_indices<LoopOrder...>, internal::unshuffle, internal::index_of, reorder"]}
{"id": "C14", "title": "for_each_value touches each element exactly once per index", "statement": "array_ref::for_each_value calls the function on exactly the multiset of element addresses {base + offset(i) : i in range}: reordering of dims, fusion of contiguous dims and the dense inner loop never skip, repeat or invent an element.", "quantifier": "every rank, all non-negative extents and arbitrary strides (zero, negative, overlapping), every base", "why_tests_cant": "the run-time optimiser (sort, fuse, pad) takes a different path for each stride pattern", "anchors": ["include/array/array.h: shape_traits::for_each_value, internal::dynamic_optimize_shape, internal::bubble_sort, internal::fuse, internal::can_fuse, for_each_value_in_order, for_each_value_in_order_inner_dense"]}
{"id": "C15", "title": "copy() copies every destination element and nothing else", "statement": "If every index of dst is in range of src and the two element sets do not overlap, then after copy(src, dst) each dst element at index i equals the src element at i, provided dst's shape is injective; all other memory is unchanged and no address outside the two arrays is read or written.", "quantifier": "every pair of shapes of equal rank (different mins, strides, orders), every memory content", "why_tests_cant": "joint sort/fuse optimisation of two shapes", "anchors": ["include/array/array.h: copy, copy_shape_traits::for_each_value, internal::dynamic_optimize_copy_shapes"]}
{"id": "C16", "title": "copy()'s debug precondition is exactly containment", "statement": "The assertion in copy() and move() (src is in range at dst.min() and dst.max()) holds, for non-empty dst, if and only if every index of dst is in range of src; and copying to an empty dst does nothing.", "quantifier": "all pairs of shapes of the same rank", "why_tests_cant": "all pairs of shapes", "anchors": ["include/array/array.h: copy, move, shape::is_in_range"]}
{"id": "C17", "title": "equal() decides element-wise equality", "statement": "equal(a, b) is true exactly when a and b have the same mins and extents and a(i) == b(i) for every in-range i, whatever their strides.", "quantifier": "all pairs of shapes with non-negative extents, all contents", "why_tests_cant": "joint optimisation of the loop over two layouts", "anchors": ["include/array/array.h: equal"]}
{"id": "C18", "title": "array_ref operator== compares shape and contents", "statement": "a == b is true exactly when the shapes are equal in every min, extent and stride and all in-range elements are equal; != is its negation.", "quantifier": "all pairs of refs of the same type", "why_tests_cant": "all pairs", "anchors": ["include/array/array.h: array_ref::operator==, array_ref::operator!=, shape::operator=="]}
{"id": "C19", "title": "fill, generate and transform_index(es)", "statement": "fill sets every element of dst to the value; generate stores the k-th generator result in the k-th element of the for_each_value order and calls the generator exactly size() times; transform_index stores fn(i) at every in-range i (injective dst). None of them changes memory outside the array.", "quantifier": "every shape, every memory, every function", "why_tests_cant": "all shapes", "anchors": ["include/array/array.h: fill, generate, transform_index, transform_indices"]}
{"id": "C20", "title": "Cropping and slicing alias the original elements", "statement": "For a(args...) with any mix of indices, intervals, dims and `_`, the element of the result at index j is the same element (same address) as a at the full index obtained by inserting the sliced indices; the result has one dim per non-index argument with the interval of the argument (or of the original for `_`) and the original stride.", "quantifier": "every rank, every argument mix, every index", "why_tests_cant": "all argument combinations of all ranks", "anchors": ["include/array/array.h: internal::make_array_ref_at, shape::operator[](tuple), internal::intervals_with_strides, internal::skip_slices, internal::mins_of_intervals"]}
{"id": "C21", "title": "Crops inside the array stay inside the array", "statement": "If the arguments of a crop or slice are in range of the shape (shape.is_in_range(args...)) then every in-range element of the result is an in-range element of the original.", "quantifier": "every rank, every in-range argument mix", "why_tests_cant": "all argument combinations", "anchors": ["include/array/array.h: shape::is_in_range, internal::make_array_ref_at"]}
{"id": "C22", "title": "transpose and reorder permute indices without moving data", "statement": "transpose<P...>(a) at index j is the same element as a at the index i with i[P[k]] = j[k]; dims beyond the listed ones stay in place; reorder<P...>(a) selects dims and fixes the dropped ones at their min.", "quantifier": "every rank, permutation and index", "why_tests_cant": "all permutations", "anchors": ["include/array/array.h: transpose, internal::transpose_impl, reorder, reinterpret_shape"]}
{"id": "C23", "title": "The compile-time permutation check", "statement": "Every permutation of [0, N) is accepted by the check guarding transpose; for N <= 4 nothing else is accepted. (From N = 5 on the check accepts lists that are not permutations, e.g. 1,1,2,2,3.)", "quantifier": "all index lists of all lengths", "why_tests_cant": "the number-theoretic test ranges over all lists", "anchors": ["include/array/array.h: internal::enable_if_permutation, internal::factorial, internal::product"]}
{"id": "C24", "title": "split(v, n) partitions the interval", "statement": "For inner extent n > 0 the intervals produced by iterating split(v, n) are consecutive, non-empty, pairwise disjoint, cover exactly the indices of v, and all but possibly the last have extent n; size() is ceil(extent/n) and equals the number of iterations.", "quantifier": "every interval with non-negative extent and every n > 0", "why_tests_cant": "all extents and factors; termination", "anchors": ["include/array/array.h: split(interval, index_t), internal::split_iterator, internal::split_result"]}
{"id": "C25", "title": "split<N>(v) covers with fixed-size intervals", "statement": "For N > 0 and v.extent() >= N, iterating split<N>(v) terminates after ceil(extent/N) intervals, each of extent exactly N and inside v, together covering v; only the last may overlap its predecessor. If extent is smaller than N (precondition violated, unchecked in release builds) and non-zero, the iteration never terminates.", "quantifier": "every interval and every N", "why_tests_cant": "all extents; termination", "anchors": ["include/array/array.h: split<InnerExtent>, internal::split_iterator::operator+="]}
{"id": "C26", "title": "Random access into a split agrees with iteration", "statement": "split(...)[k], begin()+k give the k-th interval of the iteration for every k < size(); iterator differences agree with positions; begin() + size() equals end() exactly when the inner extent divides the extent or is not smaller than it (otherwise the random-access jump overshoots end()).", "quantifier": "every interval, inner extent and k", "why_tests_cant": "all k and extents", "anchors": ["include/array/array.h: internal::split_iterator::operator+, operator+=, operator[], operator-, split_result::operator[], split_result::size"]}
{"id": "C27", "title": "clamp", "statement": "clamp(x, min, max) with min <= max lies in [min, max], equals x when x is already inside, is the nearest point otherwise, and is monotone and idempotent.", "quantifier": "all x, min <= max", "why_tests_cant": "unbounded domain", "anchors": ["include/array/array.h: clamp, internal::min, internal::max"]}
{"id": "C28", "title": "Compile-time parameter arithmetic is sound", "statement": "Whenever a compile-time min/extent/stride/max computed by the library is static, it equals the run-time value; and conversion between shape types of the same rank preserves every min, extent and stride whenever the static parameters are compatible (is_compatible), and asserts otherwise.", "quantifier": "all template parameter values (including those equal to the sentinel -9) and all run-time values", "why_tests_cant": "each template parameter combination is a different program", "anchors": ["include/array/array.h: internal::static_add/sub/mul/min/max/abs, internal::constexpr_index, dim copy constructor, shape conversion, is_compatible, internal::assert_dim_compatible"]}
{"id": "C29", "title": "make_compact produces compact strides", "statement": "make_compact keeps mins, extents and compile-time strides; for a shape with no compile-time strides (positive extents) the result is compact and one-to-one. (With compile-time strides it need not be: after an innermost dim with compile-time stride 1 and compile-time extent the next stride is the square of the extent, leaving a gap; a compile-time negative stride can make two indices alias.)", "quantifier": "every rank and template parameter combination", "why_tests_cant": "each template parameter combination is a different program", "anchors": ["include/array/array.h: make_compact, internal::make_compact_dims, fixed_dense_shape"]}
{"id": "C30", "title": "convert_shape between ranks keeps addresses", "statement": "Converting an array_ref to a higher rank (new trailing dims) or to a lower rank by dropping trailing dims of extent 1 keeps every element reachable at the same address under the extended/truncated index.", "quantifier": "all ranks and shapes", "why_tests_cant": "all rank pairs", "anchors": ["include/array/array.h: convert_shape, internal::convert_dims, internal::convert_dim, internal::is_trivial_slice"]}
{"id": "C31", "title": "Arrays: constructor and destructor calls balance", "statement": "For every sequence of array operations (construct, fill-construct, copy/move construct, copy/move assign, assign, clear, reshape, swap, element writes, destroy) on arrays with the same shape type, each element constructor call at an address is matched by exactly one destructor call at that address before the memory is released, every allocation is released exactly once with the size and an allocator equal to the one it was allocated with, and no element outside an array's allocation is touched; after all arrays are destroyed nothing is allocated. This includes arrays whose allocator is an auto_allocator, with a buffer of its own for small arrays. The caller has to pass valid shapes (no negative extents; no negative strides in shapes without elements) and indices in range; and must not copy or reshape moved-from arrays whose shape type is not empty by default. In debug builds, copying or reshaping moved-from or empty arrays can fail assertions.", "quantifier": "every operation sequence, every shape, every allocator propagation policy, every size of the buffer of an auto_allocator, with and without assertions", "why_tests_cant": "histories are unbounded", "anchors": ["include/array/array.h: class array: allocate, construct, copy_construct, move_construct, destroy, deallocate, operator=, assign, clear, reshape, swap, ~array"]}
{"id": "C32", "title": "Arrays: value semantics of copies", "statement": "After copy construction or copy assignment the destination has an equal shape and equal elements in its own allocation; later writes through either array never change the other, and self-assignment changes nothing.", "quantifier": "all arrays, shapes and allocator policies; all later writes", "why_tests_cant": "aliasing over all histories", "anchors": ["include/array/array.h: array(const array&), operator=(const array&), assign(const array&)"]}
{"id": "C33", "title": "Arrays: moves transfer ownership without touching elements", "statement": "Move construction/assignment with a propagating or equal allocator makes the destination own the very same allocation (same base pointer, shape, contents) with no element constructor, assignment or destructor call at all; with unequal non-propagating allocators (an auto_allocator whose buffer is in use is unequal to all others) every element is move-constructed in a separate allocation. After move construction the moved-from array has no memory and the default shape, so it is empty for every shape type whose default shape is empty (for shape types with all-static non-zero extents it reports a non-empty shape with a null base). After move assignment with a propagating or equal allocator the moved-from array holds what the destination held before.", "quantifier": "all arrays, shapes and allocator policies", "why_tests_cant": "all shape types and allocator states", "anchors": ["include/array/array.h: array(array&&), array(array&&, const Alloc&), operator=(array&&), swap_except_allocator"]}
{"id": "C34", "title": "swap exchanges contents", "statement": "swap(a, b) exchanges shapes and contents of the two arrays under both allocator propagation policies.", "quantifier": "all arrays and allocator policies", "why_tests_cant": "all states", "anchors": ["include/array/array.h: array::swap, nda::swap"]}
{"id": "C35", "title": "reshape keeps the intersection", "statement": "reshape(new_shape) gives the array the (resolved) new shape; every element whose index was in range of both shapes keeps its value, the others are default constructed; disjoint or empty intersections move nothing and touch no memory out of bounds.", "quantifier": "all pairs of shapes", "why_tests_cant": "all pairs of shapes, including disjoint ones with negative intersection extents", "anchors": ["include/array/array.h: array::reshape, internal::clamp, internal::clamp_dims"]}
{"id": "C36", "title": "auto_allocator never hands out its buffer twice", "statement": "auto_allocator returns its inline buffer for at most one outstanding allocation, only for requests of at most N elements, and releases it exactly when that pointer is deallocated; all other requests go to and are returned to the base allocator; allocators compare equal only when exchanging their allocations is safe.", "quantifier": "every sequence of allocate/deallocate calls", "why_tests_cant": "unbounded histories", "anchors": ["include/array/array.h: auto_allocator::allocate, deallocate, operator=="]}
{"id": "C37", "title": "Image crop returns the intersection view", "statement": "crop(im, x0, y0, x1, y1) of an overlapping rectangle gives a ref whose in-range pixels are exactly the pixels of im inside the rectangle, at the same indices for crop_origin::crop and shifted to start at 0 for crop_origin::zero. (For rectangles disjoint from the image in both x and y the result has negative extents and a positive size().)", "quantifier": "all images and rectangles", "why_tests_cant": "all rectangles", "anchors": ["include/array/image.h: crop, crop_image_shape"]}
{"id": "C38", "title": "Chunky image traversal", "statement": "for_each_value on chunky image shapes visits each (x, y, c) element exactly once, both through the fused fast path (x stride equal to the channel count) and through the general path; for_each_index visits every index once with c fastest, then x, then y.", "quantifier": "all chunky image shapes", "why_tests_cant": "two code paths over all shapes", "anchors": ["include/array/image.h: shape_traits<chunky_image_shape>, for_each_image_index"]}
{"id": "C39", "title": "Matrix traversal is row major", "statement": "for_each_index and for_each_value on matrix shapes visit each (i, j) once, with j fastest.", "quantifier": "all matrix shapes", "why_tests_cant": "all shapes", "anchors": ["include/array/matrix.h: for_each_matrix_index, shape_traits<matrix_shape>"]}
{"id": "C40", "title": "z-order traversal visits each tuple once", "statement": "for_each_in_z_order over non-empty random access ranges calls the function exactly once for every tuple of positions, never out of range, in increasing Morton order. (If one of the ranges is empty the function is still called, with positions outside that range.)", "quantifier": "every rank >= 1 and all positive range lengths", "why_tests_cant": "recursion over all ranks and lengths that are not powers of two", "anchors": ["include/array/z_order.h: for_each_index_in_z_order_impl, for_each_index_in_z_order, next_power_of_two, for_each_in_z_order"]}
{"id": "C41", "title": "ein_reduce computes the Einstein sum", "statement": "ein_reduce(ein<O...>(r) += expr) adds to each result element the sum, over all values of the indices not in O, of expr, where each operand is addressed by its own index list; = , -= and *= behave as the corresponding left folds in loop order; elements outside r are unchanged. In particular matrix product, dot product, trace and transpose examples of the documentation compute what they say.", "quantifier": "all expressions, index lists, shapes and contents", "why_tests_cant": "all expressions and sizes", "anchors": ["include/array/ein_reduce.h: ein_reduce, make_ein_reduce_shape, reconcile_dim, gather_dims, ein_op, ein_op_add_assign"]}
{"id": "C42", "title": "ein_reduce stays in bounds when its checks pass", "statement": "If no operand uses the same loop index twice and the debug checks of reconcile_dim pass, every operand access made by ein_reduce is in range of that operand. (An operand that repeats an index, such as ein<i, i>(A), is checked only for its first such dim, so a non-square A can be read out of range.)", "quantifier": "all expressions and shapes", "why_tests_cant": "all size combinations", "anchors": ["include/array/ein_reduce.h: reconcile_dim, gather_dims, internal::index_of"]}
{"id": "C43", "title": "make_ein_sum infers the result shape", "statement": "make_ein_sum<T, R...>(expr) returns a compact array whose k-th dim has the min and extent of the first operand dim using index R[k], and whose elements are init plus the Einstein sum.", "quantifier": "all expressions and shapes", "why_tests_cant": "all expressions", "anchors": ["include/array/ein_reduce.h: make_ein_sum, make_ein_reduce_shape"]}
{"id": "C44", "title": "Euclidean division and modulus", "statement": "For b != 0 (and not the overflowing pair INT_MIN / -1) euclidean_div is defined and is the quotient q with 0 <= a - q*b < |b|; if moreover b != INT_MIN, euclidean_mod is defined and is that remainder, so a = div*b + mod. (euclidean_mod(a, INT_MIN) is undefined: it takes the absolute value of INT_MIN.)", "quantifier": "all pairs of 64-bit integers", "why_tests_cant": "2^128 pairs", "anchors": ["examples/resample/rational.h: euclidean_div, euclidean_mod"]}
{"id": "C45", "title": "rational arithmetic is exact and canonical", "statement": "Rationals built from a positive denominator by +, -, * and division by positive rationals keep a positive denominator in lowest terms, and the operators, comparisons, floor, ceil, round and frac compute the exact mathematical result. (Dividing by a negative rational yields a negative denominator, after which comparisons and floor are wrong.)", "quantifier": "all rationals (exact integer arithmetic)", "why_tests_cant": "infinite domain", "anchors": ["examples/resample/rational.h: class rational, gcd, floor, round, ceil, frac"]}
{"id": "C46", "title": "Resampling kernels never read out of bounds", "statement": "If for an output position some kernel value inside the input interval is non-zero, the stored kernel covers exactly from the first to the last non-zero position, lies inside the input interval, and its values are the kernel values divided by their sum (so they add up to one in exact arithmetic).", "quantifier": "all input/output intervals and kernel functions", "why_tests_cant": "all kernels", "anchors": ["examples/resample/resample.h: build_kernels"]}
{"id": "C47", "title": "No index arithmetic overflow", "statement": "If the sum over all dims of |extent-1|*|stride| fits in index_t, the 64-bit evaluation of the flat offset of any in-range index, of flat_min and of flat_max does not overflow at any intermediate step and equals the mathematical value; likewise flat_extent if that sum is below the largest index_t, size() if all extents are positive and their product fits, max(), end() and is_in_range if min+extent fits, and automatic stride resolution if the extents of the unknown dims times the largest known span fit. (size() of an empty shape can overflow, and max() overflows for the interval that ends at the largest index_t.)", "quantifier": "all 64-bit shapes and indices", "why_tests_cant": "2^64-sized domains", "anchors": ["include/array/array.h: dim::flat_offset, interval::max, interval::is_in_range, internal::sum, internal::product, internal::flat_min, internal::flat_max", "include/array/array.h: shape::flat_extent, shape::size", "include/array/array.h: internal::resolve_unknown_strides, find_stride, is_stride_ok, candidate_stride"]}
{"id": "C48", "title": "move_reinterpret_shape stays within the moved allocation", "statement": "move_reinterpret_shape(from, new_shape, offset) addresses only elements of the allocation of from whenever new_shape moved by offset lies within the flat range of from's shape; for offset == 0 passing the debug assertion is enough, and elements at matching addresses keep their values. For offset != 0 the assertion tests the offset with the wrong sign: there are assertion-passing calls whose in-range elements are outside the allocation, and harmless calls that are rejected.", "quantifier": "all shapes and offsets", "why_tests_cant": "all shapes and offsets", "anchors": ["include/array/array.h: move_reinterpret_shape"]}
{"id": "C49", "title": "Element-wise move", "statement": "After move(src, dst) with dst in bounds of src, a non-self-aliasing source and disjoint element sets, every dst element holds the value of the src element at the same index, every src element dst covers is left moved-from, and no other memory changes. (With a broadcast, stride 0, source the later destination elements receive moved-from values.)", "quantifier": "all shapes and memory contents", "why_tests_cant": "all shapes, strides and memory layouts", "anchors": ["include/array/array.h: move(const array_ref&, const array_ref&)", "include/array/array.h: internal::move_assign"]}
{"id": "C50", "title": "for_each_value_in_order is in order", "statement": "for_each_value_in_order (for one array, and for two arrays over a common shape) calls the function exactly once per in-range index of the shape, with the address(es) of the element(s) at that index, in increasing index order with the first coordinate fastest.", "quantifier": "all shapes, strides of either sign, all base addresses", "why_tests_cant": "all shapes and strides, both inner loop variants", "anchors": ["include/array/array.h: for_each_value_in_order, internal::for_each_value_in_order_impl"]}
{"id": "C51", "title": "resample applies the kernels in both directions", "statement": "resample(in, out, rate_x, rate_y, kernel) with at least 64 output rows terminates without a failed assertion and without indexing a kernel out of bounds, and afterwards out(x,y,c) = sum over rx of K_x(x,rx) * (sum over ry of K_y(y,ry) * in(rx,ry,c)), where K_x and K_y are the normalized kernels for the output column and row, each sum taken in ascending order; in and all memory other than out, the kernels and the temporaries is unchanged. With exact arithmetic an image with one value everywhere resamples to an image with that value everywhere. With 1 to 63 output rows resample fails an assertion, or without assertions does not end.", "quantifier": "all image sizes, mins and strides (static or dynamic, any layout without overlap), rates, kernels with a non-zero value for every output position, arithmetic operations, initial memories", "why_tests_cant": "unbounded sizes, layouts and kernels; the last strip overlaps the previous one for heights that are not multiples of 64", "anchors": ["examples/resample/resample.h: resample, resample_y, make_temp_image, build_kernels", "include/array/ein_reduce.h: ein_reduce", "include/array/array.h: split<N>"]}
{"id": "C52", "title": "The matrix multiplication variants compute the product", "statement": "multiply_ref, multiply_reduce_cols, multiply_reduce_rows, multiply_reduce_matrix, multiply_reduce_tiles and their multiply_ein_reduce_… counterparts terminate without a failed assertion or an access outside their matrices and give C(i,j) = 0 + A(i,k0)*B(k0,j) + A(i,k0+1)*B(k0+1,j) + …, added up in ascending order of k, for every element of C, and change nothing else (except a local buffer): all variants give the same value even if addition is not associative. The tiled variants need at least one tile of rows and of columns, also when the tile size does not divide them (with fewer rows, but at least one, they fail an assertion or do not end).", "quantifier": "all matrix sizes, mins and row strides, tile sizes, arithmetic operations, initial memories; C not overlapping A, B or the buffer", "why_tests_cant": "the example checks one size, 384 x 1536 x 384, which all tile sizes divide, up to a tolerance; here all sizes and layouts, exactly", "anchors": ["examples/linear_algebra/matrix.cpp: multiply_ref, multiply_reduce_cols, multiply_ein_reduce_cols, multiply_reduce_rows, multiply_ein_reduce_rows, multiply_reduce_matrix, multiply_ein_reduce_matrix, multiply_reduce_tiles, multiply_ein_reduce_tiles", "include/array/array.h: split<N>, array_ref::operator()", "include/array/ein_reduce.h: ein_reduce"]}
{"id": "C53", "title": "The z-order matrix multiplication computes the product", "statement": "multiply_reduce_tiles_z_order computes C = A * B for all matrices with at least one tile of rows and of columns, up to reassociation of the sums. (False: with K > tile_k and a tile size that does not divide the rows or columns, an element in the overlap of the last two tiles gets the sums of all blocks of k but the first added once per tile; without any k, C is not written.) Exactly: C(i,j) is the sum over the first block of k, plus for each other block its sum, added as many times as there are tiles with (i,j); it is the product if the tile sizes divide the rows and columns, or K <= tile_k, for associative addition.", "quantifier": "all matrix sizes, mins and row strides, tile sizes, arithmetic operations, initial memories; C not overlapping A, B or the buffer", "why_tests_cant": "the example checks one size, which both tile sizes divide, so the wrong elements never occur", "anchors": ["examples/linear_algebra/matrix.cpp: multiply_reduce_tiles_z_order", "include/array/z_order.h: for_all_in_z_order", "include/array/array.h: split, split<N>"]}
{"id": "C54", "title": "The convolution variants compute the layer", "statement": "conv2d_naive and conv2d_tiled terminate without a failed assertion or an access outside their arrays and give output(co,x,y,n) = relu(bias(co) + sum over ci, dy, dx of filter(co,dx,dy,ci)*input(ci,x+dx,y+dy,n)), added up in ascending order of ci, dy, dx with dx fastest, and change nothing else. conv2d_tiled needs at least one tile of x and of co, also when the tile size does not divide them (with fewer x, but at least one, it fails an assertion or does not end). Both give the same memory if every value is less than, greater than or equal to zero (not for a NaN: conv2d_naive keeps it, conv2d_tiled gives 0).", "quantifier": "all shapes, mins and strides, filter sizes, tile sizes, arithmetic operations, initial memories; output not overlapping the other arrays", "why_tests_cant": "the example checks one size, with positive values only, up to a tolerance", "anchors": ["examples/linear_algebra/conv2d_relu.cpp: conv2d_naive, conv2d_tiled", "include/array/array.h: split<N>, fill, array_ref::operator()"]}
{"id": "C55", "title": "Functions that return a new array", "statement": "make_copy(src, shape, alloc) returns an array with the shape (unknown strides chosen), the allocator and, at every index, the element src has there, where src is an array or an array_ref to memory of an array (crop, slice, transpose); its memory is shared with no other array and every existing array keeps its shape and elements. make_copy(src, alloc) keeps the shape of src. make_compact_copy gives the same indices and elements and a buffer of exactly size() elements without gaps. make_move does the same by moving: exactly the elements referred to become moved-from, all others stay. make_move(array&&, shape, alloc) with the shape and allocator of the source copies and leaves the source as it is (the documentation promises a move), and the result has the allocator select_on_container_copy_construction gives, not necessarily alloc.", "quantifier": "all program states reachable by allowed programs, all source views and target shapes whose strides give different addresses (for the result; for moves also for the source), all allocators, assertions on or off", "why_tests_cant": "tests look at a few shapes and rarely at other arrays, moved-from elements or stateful allocators", "anchors": ["include/array/array.h: make_copy, make_compact_copy, make_move, make_compact_move, copy, move"]}
{"id": "C56", "title": "Exceptions leave arrays usable and lose no memory", "statement": "If the constructor of an element or the allocator throws during an operation of an array, no memory is lost, every array can still be destroyed, and other arrays keep their shapes and elements. (False for element constructors: for every shape and every k less than the number of elements, if constructing element k throws, array(shape, alloc) and array(const array&) lose the allocation with k live elements in it, array(shape, value, alloc) and array(const array&, alloc) destroy elements that were never constructed, and so does the destructor of an array after assign(const array&) or assign(shape, value). In all statements of a program (C31) in which a constructor of an element throws, memory is lost, or some array cannot be destroyed any more, or elements that do not exist are destroyed as the exception leaves the statement; arrays that the statement does not change otherwise keep their shapes and elements. True for the allocator in array(shape, alloc) and assign(const array&); but then assign(shape, value) with the same shape again does nothing or fails an assertion.)", "quantifier": "all program states reachable by allowed programs, shapes, k, values, allocators, assertions on or off", "why_tests_cant": "no test has an element constructor or allocator that throws; the failure depends on the number of elements constructed", "anchors": ["include/array/array.h: array::array, array::assign, array::allocate, array::construct, array::copy_construct, array::deallocate"]}
{"id": "C57", "title": "Small arrays live in the buffer of their allocator", "statement": "With auto_allocator<T, N> as allocator, an array with elements has them in the buffer of its own allocator exactly if the distance between any two of its elements is less than N, and otherwise in memory of the base allocator, whatever operations led there. A buffer is used by at most one allocation, that of the array it is part of, which has at most N elements; while all arrays fit nothing is allocated from the base allocator. Moving such an array (construction or assignment) moves the elements into the buffer of the destination: the source keeps its memory, with moved-from elements. (False for move_reinterpret_shape, which moves the pointers: in debug builds an assertion fails, without assertions the result refers to the buffer inside the source and its destructor gives that to the base allocator.) The buffer of small_matrix<T, Rows, Cols> (N = Rows * Cols) and of small_vector<T, Length> (N = Length) is just large enough.", "quantifier": "all program states reachable by allowed programs, all shapes, all N, with and without assertions", "why_tests_cant": "depends on the size of every array at every point of a program; a pointer into the buffer of another object mostly still works", "anchors": ["include/array/array.h: auto_allocator, array::allocate, array::deallocate, array(array&&), operator=(array&&), swap, move_reinterpret_shape"]}
{"id": "C58", "title": "Algorithms on views of arrays change exactly the elements of the view", "statement": "In a program with several arrays, copy(src, dst) between views (crops, slices, transposes, reversed) of arrays, also of the same array, has no undefined behaviour if both views refer to elements of their arrays at the indices of dst, and keeps the whole program valid (memory, lifetimes). If different indices of dst are different elements and no element is both destination of one index and source of another, dst has the values that src had. If indices of dst share elements, each has one of the values copied to it. move also leaves the sources moved-from. for_each_value calls its function exactly once for every index of the view; fill, generate and transform_index replace all elements of the view. All elements of all arrays that are not in the view (for move: or in the source) are unchanged. (If source and destination overlap at different indices the result depends on the order: copying a row one element to the right repeats the first value.)", "quantifier": "all program states reachable by allowed programs, all arrays (source and destination may be the same), shapes and offsets of views, functions, with and without assertions", "why_tests_cant": "tests check the destination of a few copies; writing outside of the view, or to another array, goes unnoticed", "anchors": ["include/array/array.h: copy, move, fill, generate, transform_index, transform_indices, array_ref::for_each_value"]}
{"id": "C59", "title": "Intervals, their iterators and comparisons mean sets of indices", "statement": "Constructing or converting an interval passes the assertions exactly if the values agree with the static parameters of its type, and then it has those values; the default is the interval [0,1) as far as the type allows, and an interval from a min alone has extent 1. range(b,e) has exactly the indices b <= i < e, the static member Max is, where known, the last index of every interval of the type; set_max(m) leaves the first index and makes m the last. is_in_range(i) is being an index, is_in_range(interval) is containing all indices of a non-empty interval, clamp gives an index and leaves indices alone. Incrementing begin() n times gives the n-th index and reaches end() exactly after extent steps; all iterator operators agree with each other. Equal intervals have the same indices, and non-empty intervals with the same indices are equal; shapes of the same rank are equal exactly if all dims have the same min, extent and stride. (The documentation says intervals are equal if they contain the same indices: false for empty intervals, range(0,0) != range(5,5).)", "quantifier": "all static parameters (or dynamic), mins, extents, strides, indices, ranks", "why_tests_cant": "tests check single intervals; the meaning of is_in_range, equality and conversion is about all indices and all types", "anchors": ["include/array/array.h: internal::constant_index, index_iterator, interval, range, clamp, dim::operator==, shape::operator=="]}
{"id": "C60", "title": "The text of a shape determines it", "statement": "The text of an interval shows, in decimal, the bounds between which exactly its indices lie. Two intervals have the same text exactly if they have the same min and extent; two dims exactly if they have the same min, extent and stride (a dim without known stride never has the text of a dim with a stride); two shapes, also of different rank, exactly if they have the same dims.", "quantifier": "all intervals, dims and shapes of all ranks, negative values included", "why_tests_cant": "an ambiguity between two of infinitely many texts is not visible in samples", "anchors": ["absl/absl.h: AbslStringify"]}
{"id": "C61", "title": "for_each_value goes through memory in order", "statement": "for_each_value on an array whose dims can be arranged so that each steps over everything that the dims before it reach (rows, planes, volumes, with or without padding), in whatever order the dims are given, visits increasing addresses, and only then. If the elements are consecutive in memory and no dim goes backward the addresses are base, base+1, ..., whatever the order of the dims; in particular with automatic strides. The same holds for the destination of copy, however the source is arranged. bubble_sort sorts. (False for dims with negative stride: for_each_value on an image stored bottom row first goes down the columns.)", "quantifier": "all shapes of all ranks with at least one index, all bases, all source shapes", "why_tests_cant": "the order has no effect on most results; tests compare results, not addresses", "anchors": ["include/array/array.h: internal::bubble_sort, internal::optimize_shape, internal::optimize_copy_shapes, shape_traits::for_each_value, copy_shape_traits::for_each_value"]}
{"id": "C62", "title": "Reconstruction kernels reconstruct, and resampling with them is well defined", "statement": "In exact arithmetic: all kernels are symmetric and vanish at their stated distance; box, linear, interpolating_quadratic, interpolating_cubic and lanczos (any number >= 1 of side lobes) are 1 at 0 and 0 at all other integers; box, linear and the B-splines are nowhere negative. linear and quadratic_family (for every r) reconstruct every linear function from its samples, cubic_family reconstructs constants for all B and C, linear functions exactly if B + 2 C = 1, interpolating_cubic all quadratic functions. linear, quadratic_family and cubic_family are continuous. sinc differs from sin(pi s)/(pi s) by at most 10^-12. With every kernel of the library (lanczos with any number >= 1 of side lobes), build_kernels for output pixels in the image of the input (for every rate, so also when the kernel is stretched) passes its assertions extent > 0 and sum > 0 at every pixel, and the stored weights add up to 1. With rate 1 and an interpolating kernel resample copies the image. (box is not continuous and takes both samples fully halfway between them; lanczos does not reconstruct constants.)", "quantifier": "all positions, all parameters r, B, C, all numbers of side lobes, all input and output intervals, all rates, all images", "why_tests_cant": "the identities are about all real positions and parameters, and the assertions about all combinations of sizes", "anchors": ["examples/resample/resample.h: box, linear, quadratic_family, cubic_family, interpolating_quadratic, interpolating_cubic, quadratic_bspline, cubic_bspline, sinc, lanczos, internal::build_kernels, resample"]}
{"id": "C63", "title": "How often each statement constructs, assigns and destroys elements", "statement": "For every constructor, assignment, assign, clear, reshape, swap, make_copy, make_move, copy, move, fill and transform_index, the sequence of member functions of the element type that is called is the documented one: one default construction per index for array(shape); destroying the old elements and copy or move constructing one element per index for assignments; nothing at all where the memory of a moved-from array is taken over (propagating allocator, or equal allocators that do not use their buffer); for reshape one default construction per new index, one move assignment per common index and one destruction per old index, and the same again as move constructions when the memory cannot be taken over; for swap no, two or three element-wise moves depending on the allocators. After every program, the number of constructor calls is the number of destructor calls plus the number of elements of the arrays that exist; if no array exists they are equal. Programs without a statement that asks for copies never call a copy constructor or copy assignment.", "quantifier": "all sequences of statements, all shapes, all element types, all allocators (stateful, propagating or not, with an inline buffer of any size)", "why_tests_cant": "test/array_lifetime.cpp checks some counts for two shapes and five allocators", "anchors": ["include/array/array.h: class array, allocate, construct, copy_construct, move_construct, destroy, deallocate, assign, operator=, clear, reshape, swap, make_copy, make_move, copy, move, auto_allocator", "test/array_lifetime.cpp"]}
{"id": "C64", "title": "Views of views are views", "statement": "Cropping or slicing an array_ref that came from cropping or slicing is one crop or slice of the original, with the same pointer and the same shape: indices stay, of two intervals the later one counts, `_` leaves the earlier argument. If is_in_range holds for both steps it holds for the single step. Slicing coordinates one by one in either order or at once gives the same ref. transpose<P> followed by transpose<Q> is the transpose by the composition, and transposing by the inverse gives the original ref; cropping and then transposing is transposing and then cropping by the permuted arguments. Cropping an image twice with crop_origin::crop is cropping it once to the intersection. reinterpret_shape twice is reinterpret_shape with the sum of the offsets.", "quantifier": "all refs of every rank with any extents and strides, all arguments, all permutations, also null refs", "why_tests_cant": "tests compare elements of a few views of views; the equality of refs concerns every combination of arguments and every shape", "anchors": ["include/array/array.h: array_ref::operator(), make_array_ref_at, shape::operator[](args), range_with_stride, skip_slices, mins_of_intervals, transpose, reinterpret_shape", "include/array/image.h: crop"]}
{"id": "C65", "title": "Einstein reductions may be rewritten by the rules of algebra", "statement": "Numbering the loop indices differently gives the same result (for operators whose updates commute). Replacing the right hand side by another expression over the same operands with the same value at every loop index (commuting, associating or distributing operators) gives the same result, for every operator. ein<j, i>(transpose<1, 0>(A)) may stand for ein<i, j>(A), for arrays of any rank and any permutation, on both sides. r = g(r, e) with the same indices for r on both sides is the reduction of e with g, for every g and without any condition on the memory: r = r + e is r += e, and r = max(r, e) leaves in each element the largest of its old value and of the values of e that belong to it. r += a + b is r += a followed by r += b if both use the same loop indices (and otherwise not: b is added once for every value of the indices that only a uses); r -= e is r += -e; r += e; r -= e restores the memory; tr(A B) = tr(B A).", "quantifier": "all expressions, operands, shapes and memories for which the reduction is defined", "why_tests_cant": "tests compare a few expressions on a few shapes with loops; the rules quantify over expressions", "anchors": ["include/array/ein_reduce.h: ein_reduce, ein, ein_op, make_ein_reduce_shape", "include/array/ein_reduce.h:389-403"]}
{"id": "C66", "title": "Einstein reductions may be done in pieces", "statement": "Cropping every operand that uses loop index k to each of several disjoint intervals that together cover the range of k and reducing piece after piece, in any order, leaves the same memory as the whole reduction, if updates commute (+=, -=, *=); the crops pass the assertions of ein_reduce. In particular for the intervals of split(v, n), and of split<N>(v) if N divides the extent. If k is the outermost loop and the intervals ascend, the result is the same for every operator and every arithmetic, floating point included. Overlapping intervals, as split<N> makes them when N does not divide the extent, add values twice.", "quantifier": "all reductions, loop indices, intervals and split factors", "why_tests_cant": "the tiled examples are tested for a few sizes with one tile size", "anchors": ["include/array/ein_reduce.h:399-403, ein_reduce", "include/array/array.h: split, array_ref::operator()", "examples/linear_algebra/matrix.cpp: multiply_ein_reduce_tiles"]}
{"id": "C67", "title": "Images, matrices and vectors made from sizes are stored consecutively in the documented order", "statement": "chunky_image_shape<C>({w, h, {}}) (C given or dynamic, extent c) puts (x, y, k) at ((y - y0) w + (x - x0)) c + k; planar_image_shape and image_shape at ((k - c0) h + (y - y0)) w + (x - x0); matrix_shape<Rows, Cols> (each given or dynamic) at (i - i0) cols + (j - j0); vector_shape at i - i0. The assertions of the constructors hold, distinct indices are at distinct offsets, and the offsets are exactly 0, 1, ..., size - 1. An assertion of the constructor fails exactly if a min or an extent given by the type is not that of the interval.", "quantifier": "all mins and all extents >= 1 whose product is at most 2^63 - 1", "why_tests_cant": "tests check a few sizes; the strides are found by a search whose result depends on the extents", "anchors": ["include/array/image.h:28, 41-42, 113", "include/array/matrix.h:30-31, 43-44", "include/array/array.h: shape, find_stride, resolve_unknown_extents_and_strides"]}
{"id": "C68", "title": "Chunky images with padded pixels", "statement": "In chunky_image_shape<C, S>({w, h, {}}) with C <= S, c is dense, x has stride S and y steps over a row of w pixels (image.h:36-40). A view of C channels of an image with S channels made from its base and size, as in test/image.cpp:159-178, addresses the pixels of that image.", "quantifier": "all channels, strides, widths and heights", "why_tests_cant": "the test uses three of four channels and 30 rows, for which the statement holds; it fails exactly if 2 <= h and h C <= S", "anchors": ["include/array/image.h:36-42", "test/image.cpp:159-178", "include/array/array.h: find_stride"]}
{"id": "C69", "title": "Comparing arrays after copies, writes, moves, swaps and reshapes", "statement": "In a program with any number of arrays, a == b exactly if they have equal shapes and no element of a is != the one of b at the same index; equal(a, b) exactly if they have the same mins, extents and elements, whatever the strides; != is the opposite of ==. Both hold for views as well and touch nothing but elements of the views. A copy (construction, construction with an allocator, assignment, make_copy, make_compact_copy) compares equal to its source; after writing to one of two equal arrays they are equal exactly if the value equals the one of the other array there; reshaping to a larger shape and back, swapping twice and moving out and back change nothing that == can tell. == is an equivalence if element comparison is.", "quantifier": "all reachable states, arrays, shapes, views, element types and element comparisons", "why_tests_cant": "tests compare a few arrays; the comparison runs over optimised shapes that depend on the strides", "anchors": ["include/array/array.h:1914-1924, 2182-2195, 2684-2688, 2956-2985", "include/array/array.h: array constructors and assignments, reshape, swap, make_copy"]}
{"id": "C70", "title": "Arrays do not look at the values of their elements", "statement": "If every value in a program (of fills, writes, T(), moved-from objects, functions passed to the algorithms) is replaced by a corresponding one, possibly of another type, the program goes wrong in the same way or succeeds with the same arrays, shapes, memory and calls of constructors, assignments and destructors, and every element is replaced by a corresponding value. In particular elements hold only values that were written, defaults and moved-from values; what is found in uninitialised memory can not be observed; and comparisons give the same results if comparing the values does.", "quantifier": "all programs, element types, relations between values, shapes and allocators", "why_tests_cant": "a test uses one set of values; this says that a test with distinct values is enough", "anchors": ["include/array/array.h:2233-2758 array", "include/array/array.h:2763-2954 copy, move, make_copy, make_move, fill, generate, transform_index", "include/array/array.h:2182-2195, 2956-2985"]}
{"id": "C71", "title": "uninitialized_allocator changes nothing but the elements that were never given a value", "statement": "An array made with uninitialized_allocator<Alloc> calls no constructor, and its elements are alive with indeterminate values. A program that uses uninitialized_allocator<Alloc> instead of Alloc goes wrong in the same way or succeeds with the same arrays, and each element that is not indeterminate is the same, whatever T() is. Arrays made by filling, or by make_copy from determinate elements, are determinate.", "quantifier": "all programs, trivial element types, base allocators (also auto_allocator), shapes and default values", "why_tests_cant": "a test that reads an element that was never written may see the expected value by accident", "anchors": ["include/array/array.h:3181-3237", "test/array_lifetime.cpp:445-450", "test/array.cpp:308-324"]}
{"id": "C72", "title": "Einstein reductions in programs with arrays", "statement": "ein_reduce(lhs op= rhs) on views of arrays, when its assertions hold and no element of lhs is also an operand, accesses only live elements of the views; each element of lhs becomes the fold of op over the values of rhs for the loop indices that address it, and nothing else changes. make_ein_sum creates a new dense array with the elements init plus the sum and leaves all other arrays alone. Hence make_ein_sum<T, i, j>(ein<i, k>(A) * ein<k, j>(B)) is the matrix product, (AB)C == A(BC), and the product with an identity matrix is equal to the matrix.", "quantifier": "all reachable states, views of any rank and strides (also of one array), expressions, element types, allocators", "why_tests_cant": "tests use a few fixed matrices; associativity and the absence of undefined behaviour concern all programs", "anchors": ["include/array/ein_reduce.h:418-443 ein_reduce", "include/array/ein_reduce.h:448-452 make_ein_reduce_shape", "include/array/ein_reduce.h:475-483 make_ein_sum", "include/array/array.h:2749-2753 make_array"]}
{"id": "C73", "title": "Pointers computed by the loops of fill, for_each_value and copies", "statement": "The loops behind fill, generate, for_each_value, operator== and copies call their function with the pointers of the elements, and also compute pointers they never use: the end of a dense row and the pointer after the last step of each dim. All of these are within the array or one past its end, as C++ requires, exactly if no stride of the shape is negative and no dim's stride leaves a gap after the elements of the dims with smaller strides. This is so for all arrays whose strides are left to the library; for shapes with non-negative strides and at least two indices in each dim it says that the elements are contiguous. It also holds for a copy between arrays with the same such shape. It fails for padded arrays, negative strides, strided views and copies between different layouts.", "quantifier": "all shapes of any rank with elements, all base pointers, all reachable arrays", "why_tests_cant": "a pointer that is computed and not used has no effect that a test could see, and sanitizers do not report it", "anchors": ["include/array/array.h:1426-1434 advance", "include/array/array.h:1446-1472 for_each_value_in_order_impl", "include/array/array.h:1476-1486 for_each_value_in_order", "include/array/array.h:1692-1704 for_each_value_in_order", "include/array/array.h:1714-1730 for_each_value_in_order (two arrays)"]}
{"id": "C74", "title": "Copies keep the promise of restricted pointers", "statement": "The inner loops of copy, move and of the copies made by constructors and assignments declare their pointers __restrict__: no element that is written may be reached through both pointers. Copies between different arrays, and between views of one array without a common element, keep this promise, in every program. Copying a view to itself breaks it exactly if all its strides are positive and one is 1. For two places with the layout of a dense array, the promise is kept exactly if they have no common element.", "quantifier": "all shapes of any rank, all base pointers, all reachable states of programs", "why_tests_cant": "what a compiler does with a broken promise depends on its version, its options and the machine; a copy of overlapping rows usually works in a debug build", "anchors": ["include/array/array.h:65-69 NDARRAY_RESTRICT", "include/array/array.h:1438-1486 for_each_value_in_order", "include/array/array.h:1714-1730 copy_shape_traits::for_each_value", "include/array/array.h:2760-2788 copy, 2834-2843 move"]}
{"id": "C75", "title": "Elements of arrays as fill values", "statement": "assign(shape, value), the constructor with a value and fill take the value by reference, so it can be an element of an array. If it is an element of another array, assign and the constructor do what they do with the value of that element. fill gives all elements of the view the value that the element had before, also if it is one of them, and changes no others. Assigning an element of the array itself reads an element that has been destroyed or whose memory has been released, for all arrays, shapes and elements.", "quantifier": "all programs, arrays, elements, shapes and views", "why_tests_cant": "reading a destroyed element often yields the old value; tests use literals as values", "anchors": ["include/array/array.h:2298-2301 construct", "include/array/array.h:2358-2361 array(shape, value, alloc)", "include/array/array.h:2527-2537 assign", "include/array/array.h:2905-2912 fill"]}
{"id": "C76", "title": "Validity of pointers to elements", "statement": "A pointer to an element of an array is dangling after exactly these statements: destroying or clearing the array, assigning or reshaping it to another shape, assigning an array of another shape to it unless a move assignment takes over the memory, and copy assignment that propagates an unequal allocator. After every other statement, among them moves, swaps, writes, algorithms and everything done to other arrays, it points to the element with the same index of the same array, or, if memory changed hands, of the array that was moved to or from or swapped with, and can be read. For swap this needs allocators that exchange memory; with the buffer of an auto_allocator it is false.", "quantifier": "all reachable states of programs, all statements, arrays, allocators and elements", "why_tests_cant": "memory that was given back usually still has the old values, and tests do not keep pointers over assignments", "anchors": ["include/array/array.h:2379-2481 constructors and assignment operators", "include/array/array.h:2486-2537 assign", "include/array/array.h:2619-2644 clear, reshape", "include/array/array.h:2689-2704 swap"]}
{"id": "C77", "title": "Loops over tiles", "statement": "Loops over the tiles of an array, each dim cut with split(d, n), split<N>(d) or kept whole, end and make one tile per combination of pieces; elements of tiles are the elements of the array with the same index, every element is in a tile, and in exactly one if compile-time factors divide the extents. In whatever order the tiles are visited (nested loops, interchanged loops, z order), fill, transform_index, copy and equal done tile by tile give the result of the same call for the whole array. An in-place update of the values does so if tiles do not overlap or the update is idempotent; otherwise elements of the overlap are updated twice.", "quantifier": "all ranks, shapes, strides, factors, orders of the tiles, values and memories", "why_tests_cant": "tests use a few extents and factors, and do not vary the order of the tiles", "anchors": ["include/array/array.h:520-642 split", "include/array/array.h:2079-2107 operator() and for_each_value of array_ref", "include/array/array.h:2763-2980 copy, fill, transform_index, equal", "include/array/z_order.h:82-111 for_each_in_z_order", "README.md:225-248"]}
{"id": "C78", "title": "Exceptions of allocators, assignments and callbacks", "statement": "A program that catches exceptions thrown by allocators, by assignment operators of elements or by functions given to algorithms, at any call in any statements, and goes on, does nothing undefined: memory belongs to one array each, elements are alive exactly where an array has them, nothing leaks, and every array can be destroyed. A statement left by such an exception has not changed arrays it would not change otherwise. If it defines an array nothing has changed. An exception of an assignment or callback changes values only. operator=, assign and clear can only be left by an exception of the allocator and leave the target without memory. reshape has not changed anything if the allocator throws, for the default allocator (not auto_allocator) and those that propagate on move assignment.", "quantifier": "all programs, statements, shapes, allocator traits, values, and all points at which an exception is thrown", "why_tests_cant": "test/array_lifetime.cpp has no exceptions; each call of each statement is a different path", "anchors": ["include/array/array.h:2260-2750 array", "include/array/array.h:2300-2400 construct, allocate, destroy, deallocate", "include/array/array.h:2763-2980 copy, move, fill, generate, transform_index, make_copy", "include/array/array.h:3108-3165 auto_allocator"]}
{"id": "C79", "title": "Function objects given to loops and algorithms", "statement": "for_each_index calls the caller's function object itself, once per in-range index, in the order of the shape_traits; so does for_each_value with the default traits and on chunky images, with the elements. for_all_indices, the versions with a loop order, generate, transform_index, transform_indices, and for_each_value on matrices and on chunky images with a pixel stride of their own, make an object from the caller's one first (by its copy constructor if it is const, else by its move constructor), make all calls on that one, and leave the caller's object as the constructor left it, even if there are no elements. generate on those shapes and transform_indices move it a second time. Each result of generate, transform_index and transform_indices is stored before the next call. The outcome is defined exactly if all calls are.", "quantifier": "all classes of function objects (with any state, moves, copies, effects on the outside and on memory), all shapes with non-negative extents of any rank, all shape_traits of the library", "why_tests_cant": "the tests pass temporary lambdas, for which moves are not observable, and never look at a function object after the call", "anchors": ["include/array/array.h:1887-1901 shape_traits<>::for_each_value", "include/array/array.h:1943-1972 for_each_index, for_all_indices", "include/array/array.h:2104-2107 for_each_value", "include/array/array.h:2917-2954 generate, transform_index, transform_indices", "include/array/matrix.h:75-84", "include/array/image.h:73-106"]}
{"id": "C80", "title": "Chains of views", "statement": "Crops and slices, transpose, reorder, the image functions crop and slice_channel, and convert_shape can be applied one after the other in any number and order. If each step is in range of the view it is applied to, then every index of the last view means, by composing the documented meanings of the steps, an index of the array, different ones for different indices, and both have the same address. fill, transform_index, for_each_value, copy and make_copy through such views have no undefined behaviour and change exactly the elements of the array that the indices of the view mean, also when source and destination are views of the same array without overlap. The assertion of reorder holds.", "quantifier": "all chains of views of any length, all arrays with memory and distinct elements in all reachable program states, all ranks, mins, extents and strides (negative and zero ones included)", "why_tests_cant": "the number of chains is infinite; tests use one or two steps on small shapes", "anchors": ["include/array/array.h:1997-2004 make_array_ref_at (operator()) with ranges", "include/array/array.h:2984-2995 convert_shape", "include/array/array.h:3020-3039 reinterpret_shape", "include/array/array.h:3078-3108 transpose, reorder", "include/array/image.h:131-191 crop, slice_channel", "include/array/array.h:2763-2812 copy, make_copy", "include/array/array.h:2905-2954 fill, transform_index"]}
{"id": "C81", "title": "Loops, copies, splits and z-order on bounded index_t", "statement": "Let index_t have w bits. fill, for_each_value, copy and the algorithms built on them optimize shapes without overflow, with the result of unbounded arithmetic, if the product of the extents, the extent times stride of each dim, and the sum over the dims of |min| times the other extents are below 2^(w-1); with all mins zero the last condition is void. A copy starts at the source element whose index is the min of the destination. split does not overflow if the end of the interval plus the inner extent is representable. A z-order traversal does not overflow if and only if no extent exceeds 2^(w-2). Without the first condition on mins the claim is false, though mins do not matter for the loops.", "quantifier": "all widths w (64 and 32 included), all ranks and all values of mins, extents, strides and split factors within the stated bounds", "why_tests_cant": "the bounds concern values near 2^63, and tests of the result cannot see undefined behaviour; with int indices no test is built", "anchors": ["include/array/array.h:83-89 NDARRAY_INT_INDICES", "include/array/array.h:1714-1730 for_each_value_in_order", "include/array/array.h:1734-1870 can_fuse, fuse, optimize_shape, optimize_copy_shapes", "include/array/array.h:516-647 split", "include/array/z_order.h:31-80"]}
{"id": "C82", "title": "Rounding errors of products, reductions and convolutions", "statement": "For element types whose sums and products are rounded with a relative error u (products also with an absolute error eta, for underflow) as long as results are at most Omega: each element of the result of the nine versions of matrix multiplication (the z-order one if tiles do not overlap) is finite, and differs from the exact sum of the K products by at most ((1+u)^(d+1)-1) times the sum of their magnitudes plus K*eta*(1+u)^d, if that is at most Omega in total; d is K, and for z-order the size of a block plus the number of blocks minus one. ein_reduce with += and both convolutions followed by ReLU have the corresponding bounds. With u = eta = 0, as for floating-point integers of at most 2^24, results are exact. The bound is attained. Any other order and association of the same sums, with products contracted with additions or not, has this bound with its own depth d. The assumptions hold for IEEE 754 binary formats; for float u is 2^-24, eta is 2^-150 and Omega the largest number.", "quantifier": "all shapes, all values, all arithmetics that satisfy the stated rounding assumptions", "why_tests_cant": "tests compare with a fixed tolerance for some random values; errors depend on the order of all operations for all values", "anchors": ["examples/linear_algebra/matrix.cpp:37-330 multiply_*", "examples/linear_algebra/conv2d_relu.cpp:23-94", "include/array/ein_reduce.h:419-443 ein_reduce"]}
{"id": "C83", "title": "Which calls compile, and the types of views", "statement": "For a shape, array or array_ref of rank n, a(args...) and a[tuple(args...)] choose the element overload exactly if there are n arguments that are all numbers, the view overload exactly if there are n numbers, intervals and dims that are not all numbers, and otherwise do not compile; no call is ambiguous. The type of a view has the static strides of the array and the static bounds of the arguments, and tells the truth about the view. Conversions between types of intervals and of dims compile exactly if some value of the one type can be converted to the other. for_each_index and for_all_indices with a loop order compile for a function of k indices exactly if k existing dims are named, none twice. The compile-time check of ein_reduce rejects only loops whose dims can never have the same bounds.", "quantifier": "all ranks, lists of argument types, static parameters, loop orders", "why_tests_cant": "test/errors.cpp lists some calls that must not compile, and is only checked for where errors appear; it says nothing about other types and calls", "anchors": ["include/array/array.h:944-959 all_of_any_type", "include/array/array.h:1095-1117 enable_if_all_indices, enable_if_any_slices", "include/array/array.h:738-783 range_with_stride, skip_slices", "include/array/array.h:278-287, 439-456 conversions", "include/array/array.h:1943-1972 for_each_index, for_all_indices", "include/array/ein_reduce.h:234-236 reconcile_dim"]}
{"id": "C84", "title": "Rounding errors of resampling", "statement": "In an arithmetic that rounds sums, products, quotients and conversions with a relative error of at most u (products and quotients also with an error of at most eta when they underflow) and does not overflow, resample() produces finite pixels, and each differs from the exact weighted mean of the input pixels, with the weights that the kernel gives, by at most an explicit bound in u, eta, the number of non-zero weights, the ratio of the sum of their magnitudes to their sum, and the largest input. For binary32, four weights that are not negative, and inputs up to 255, the bound is 0.00031. The weights differ from those of an exact kernel by at most the error of the kernel function and its slope times about 8u times the coordinates; differences of the weights change the mean by at most an explicit bound.", "quantifier": "all images, rates, kernels, element values; all arithmetics with the stated error bounds, of which IEEE binary formats are examples", "why_tests_cant": "test images and kernels have particular sizes and values; the error bound is about all of them, and the loss of accuracy at large coordinates needs very large images", "anchors": ["examples/resample/resample.h:103-157 build_kernels", "examples/resample/resample.h:161-228 resample_y, resample", "examples/resample/rational.h:119-122 to_float", "examples/resample/resample.h:33-34 linear"]}
{"id": "C85", "title": "The program that resizes images", "statement": "For images of sizes from 1 to 2^29 - 1 (new height at least 64), the resample program, run with a kernel made of polynomials, ends without an undefined operation or a failing assertion, whatever the pixels. In exact arithmetic each component of each output pixel is the weighted mean of the same component of the input pixels, limited to the range of components, without its fraction; nothing else is written. A constant channel stays constant, and resizing to the same size with one of the program's polynomial kernels copies the image. In arithmetic that rounds, the value before truncation is within an explicit bound of the weighted mean; for 8-bit components in binary32 and at most four non-negative weights the bound is 0.00031.", "quantifier": "all image sizes, pixel values, kernels, and placements of the objects in memory; all arithmetics with the stated error bounds", "why_tests_cant": "the program has no tests; the statement is about all sizes and pixels, and the failures (truncation below an integer, conversion of an out-of-range float) depend on the rounding of particular quotients and on the pixel type Magick was built with", "anchors": ["examples/resample/resample.cpp:24-38 parse_kernel", "examples/resample/resample.cpp:41-72 magick conversions", "examples/resample/resample.cpp:74-105 main", "include/array/array.h:2804-2812 make_copy"]}
{"id": "C86", "title": "Loops over values are as few as possible", "statement": "for_each_value, copy and equal sort the dims by stride and fuse dims that are contiguous; no two neighbouring loops that remain could be one. If no dim has extent 1, no loop nest with fewer loops visits the same elements in the same order. An array without gaps is visited by a single loop over all its elements, in whatever order its dims are; with automatic strides also if some dims have extent 1. Otherwise a dim of extent 1 may prevent fusing.", "quantifier": "all shapes of any rank, all pairs of shapes, all loop nests", "why_tests_cant": "the results of the loops are the same without fusing; only the time differs, and tests of speed cover single shapes", "anchors": ["include/array/array.h:1734-1742 can_fuse, fuse", "include/array/array.h:1769-1797 dynamic_optimize_shape", "include/array/array.h:1801-1846 dynamic_optimize_copy_shapes"]}
{"id": "C87", "title": "Elements as bytes: alignment and reinterpret", "statement": "Every element of an array is constructed at an address that is aligned for its type, and only bytes of the allocation are written, whenever the allocator returns aligned memory, as auto_allocator does if its Alignment is at least alignof(T) (the default); it hands out its buffer only while that is free and only to requests that fit. reinterpret<U>(a) has the shape of a and its elements occupy the same bytes; reading through it is defined exactly if C++ allows accesses to T through U (the same type but for signedness, or a type for bytes), and gives the bytes of the element; assigning through it changes the bytes of this element only; reinterpreting back gives a. (Equal sizes alone are not enough: reading int elements as float, as a test does, is undefined.)", "quantifier": "all element types (sizes, alignments), shapes of any rank and strides, addresses, memories and indices", "why_tests_cant": "undefined accesses and misaligned elements usually appear to work on the machine of the test; misaligned buffers depend on where the compiler places objects", "anchors": ["include/array/array.h:2997-3019 reinterpret, reinterpret_const", "include/array/array.h:2282-2301 allocate, construct", "include/array/array.h:3110-3179 auto_allocator", "include/array/array.h:3232-3236 uninitialized_auto_allocator"]}
{"id": "C88", "title": "Calls made by several threads at the same time", "statement": "fill, for_each_value, copy, move, transform_index, equal and ein_reduce change only elements of the view they are to change (move also those it moves from) and read only elements of the views they are given. Calls such that none changes an element that another one changes or reads can be made by different threads at the same time without a data race, and however their accesses are interleaved, the result is that of the calls one after the other; an equal among them gives the right answer. In particular an array whose elements are distinct can be filled, updated, computed from indices or copied into with one thread for each tile of split(v, n) (or split<N>, if N divides the extent), and ein_reduce can be divided along an index of its left-hand side. (Dividing it along another index, or using overlapping tiles of split<N>, is a data race that can lose updates.)", "quantifier": "all lists of calls, shapes of any rank and strides, addresses, memories, and all interleavings of the accesses of any number of threads", "why_tests_cant": "tests run one schedule out of exponentially many; a race may never show up on the machine of the test", "anchors": ["include/array/array.h:2101-2107 for_each_value", "include/array/array.h:2763-2772 copy", "include/array/array.h:2834-2843 move", "include/array/array.h:2905-2908 fill", "include/array/array.h:2930-2935 transform_index", "include/array/array.h:2956-2968 equal", "include/array/ein_reduce.h:418-443 ein_reduce", "include/array/array.h:614-642 split"]}
{"id": "C89", "title": "Reductions and comparisons with different element types and partial operations", "statement": "If the operands of ein_reduce have different element types, and its operators are not defined for all values (signed overflow, division by zero), the reduction is defined exactly when for each element of the result the operations on the values of the right-hand side at its loop indices, in loop order, are defined; then each element has this value, and no other object of any type changes. A defined += adds the sum of the values, as numbers for a signed result and modulo 2^n for an unsigned one, in whatever types the right-hand side was computed; it is defined if no element is closer to a limit of its type than the number of its terms times their largest magnitude. In particular a dot product of int8_t arrays in an int starting from 0 is exact for up to 131071 elements, and 131072 elements can overflow. equal(a, b) of arrays of different element types is true exactly when mins and extents are the same and no pair of elements at the same index compares unequal.", "quantifier": "all element types, all partial operators, expressions of any size, shapes of any rank and strides, all memories", "why_tests_cant": "overflow depends on the values and the number of terms; tests use one element type and small values", "anchors": ["include/array/ein_reduce.h:107-196 ein_unary_op, ein_cast_op, ein_binary_op", "include/array/ein_reduce.h:418-443 ein_reduce", "include/array/array.h:2956-2968 equal"]}
{"id": "C90", "title": "Array_refs without memory", "statement": "A ref has memory for its elements if its base is not null or its shape has no index. The assertions of for_each_value, fill and generate hold exactly for such refs; those of copy and move hold exactly if the destination has no index, or the indices of the destination are indices of the source and both bases are not null; those of equal (of ==) hold exactly if mins or extents (the shapes) differ, there is no index, or both bases are not null. transform_index, which does not check, is defined exactly for refs that have memory for their elements. Crops and slices in range, transposes, and reorders that drop only dims with indices, of refs that have memory for their elements have memory for their elements. (A reorder that drops an empty dim of stride 0 may give a null ref with elements; empty() is true for all null refs, even if size() is not 0 and the assertions of fill and copy fail.)", "quantifier": "all refs of any rank, mins, extents and strides, null or not, all arguments of views", "why_tests_cant": "null refs with unusual shapes are not tried; assertions abort a test instead of reporting", "anchors": ["include/array/array.h:1692-1730 for_each_value_in_order", "include/array/array.h:1895-1924 shape_traits::for_each_value, copy_shape_traits::for_each_value", "include/array/array.h:2104-2107 array_ref::for_each_value", "include/array/array.h:2141 array_ref::empty", "include/array/array.h:2182-2195 operator==", "include/array/array.h:2763-2843 copy, move", "include/array/array.h:2930-2968 transform_index, equal"]}
{"id": "C91", "title": "Kernels and resampling in float", "statement": "With IEEE binary32 arithmetic, each of the polynomial kernels of the library (box, linear, interpolating_quadratic, interpolating_cubic, quadratic_bspline, cubic_bspline) returns, for every finite argument, a finite number within ε of the exact kernel (ε = 0 for box, 2^-24 for linear, 2^-20 for the quadratic and 2^-17 for the cubic kernels), and exactly zero beyond the support of the kernel. With exact operations the same sequence of operations gives the exact kernels. For output pixels in the image of the input, input coordinates of at most c in magnitude and N ≤ 500 with N * min(rate, 1) >= 9/2 and N (2 c + 8) <= 100000 (c <= 9996 if the image is not made smaller), the values that build_kernels computes with any of these kernels except box are finite, at most N of them are not zero, they differ from the exact ones by at most 20 N (2 c + 8) / 2^24 in total and add up to at least 1/8; so the assertion of build_kernels holds, and the program that resizes images ends without undefined behaviour or failing assertion for all images of such sizes, with the rounding errors of C84 and C85. (With box the assertion can fail in float where it holds in exact arithmetic: enlarging from 2 to 24623797 pixels.)", "quantifier": "all finite float arguments; all input and output ranges, rates, pixels and positions within the stated sizes; components of up to 24 bits", "why_tests_cant": "there are 2^32 arguments per kernel and unboundedly many rates and sizes; a wrong constant or a missed piece shows only near the joints of the pieces, and a sum of weights near zero only for particular rates", "anchors": ["examples/resample/resample.h:31-74 kernels", "examples/resample/resample.h:103-157 build_kernels", "examples/resample/resample.cpp:74-105 main"]}
{"id": "C92", "title": "Bounds checks of Einstein reductions", "statement": "The assertions of ein_reduce(lhs op= rhs) pass exactly if, along every index of the result, every operand's dim covers that of the result (equals it, if the result has stride 0 there), and along every other index all operands have the same bounds. The assertions of make_ein_sum<T, R...>(expr), when the shape is inferred, pass exactly if along every index in R each operand covers the first operand with that index. If nothing is summed, the result has no stride 0 and the loops are not empty, they pass exactly if no operand is read out of range. Operands made from a pointer and size or a C array have the indices 0 ... N-1 and refer to x[i]; a scalar operand is in range for every index.", "quantifier": "all expressions, operands, ranks, bounds and index lists", "why_tests_cant": "a check that is missing for one operand or index, or too strict, shows only for particular combinations of bounds, and a failing assertion ends the test program", "anchors": ["include/array/ein_reduce.h:228-263 reconcile_dim", "include/array/ein_reduce.h:294-328 gather_dims, make_ein_reduce_shape", "include/array/ein_reduce.h:353-373 ein", "include/array/ein_reduce.h:418-483 ein_reduce, make_ein_sum"]}
{"id": "C93", "title": "The example programs accept their own results", "statement": "The program examples/linear_algebra/matrix.cpp returns 0: none of its nine versions of multiply fails an assertion, accesses an element out of bounds, or differs from multiply_ref by more than the tolerance, in binary32, for all random numbers in [0, 1] and all measured times but zero. The program conv2d_relu.cpp reports no difference, for all values, NaN and infinities included. relative_error(a, b) > tolerance decides within 1e-6 whether finite non-negative numbers differ by more than the tolerance; it is false if either is NaN or +infinity or both are negative. benchmark(op) calls op at least once and at most 1111111111 times, and returns the time per call of its last trial, which took more than 999999999 ns or was the tenth.", "quantifier": "all sequences of random numbers, measured times and placements of the arrays; the matrix program for all sizes that the tiles divide and up to 1536 terms, the convolution program for all sizes not below those of the tiles", "why_tests_cant": "the programs run with one seed; whether rounding in another order of summation can exceed the tolerance for some other values, and what happens for other times, is not tested; the check itself is not tested", "anchors": ["examples/benchmark.h:24-45 benchmark", "examples/linear_algebra/matrix.cpp:342-401 relative_error, main", "examples/linear_algebra/conv2d_relu.cpp:96-141 main"]}
{"id": "C94", "title": "Einstein reductions in place", "statement": "ein_reduce(lhs op= rhs) gives the result that is documented for separate arrays also if operands and the result have elements in common, as long as no element is read in an iteration after the one that wrote it. In particular, if nothing is summed and each operand is either the result itself with the same indices or separate from it, each element is updated from the values before the reduction (x = x * x + y). A copy ein_reduce(ein<Is...>(a) = ein<Js...>(b)) between overlapping arrays is right for all contents exactly if every element that is read after it was written was copied to itself. Moving a vector within itself by k is right exactly if k >= 0 or the ranges do not overlap; transposing a square matrix in place is right only if it has at most one element; x += A * x is wrong.", "quantifier": "all expressions, operators, ranks, layouts, sizes and contents", "why_tests_cant": "overlapping operands give right results for some sizes, directions and orders of dims and wrong ones for others; no test uses them", "anchors": ["include/array/ein_reduce.h:418-443 ein_reduce", "include/array/ein_reduce.h:164-167, 193-196 ein_op assignments", "include/array/array.h:1365-1414 for_each_index_in_order"]}
{"id": "C95", "title": "Copies between views that overlap", "statement": "If the dims of dst can be arranged as rows, planes and volumes, in whatever order they are given, copy(src, dst) between views of one array gives dst the values that src had, for all contents, exactly if no element is overwritten with another value before it is copied, in the order of the addresses of dst. This is so if no element goes to a higher address: scrolling towards the start, removing padding and collecting a channel can be done in place. Between places of the same layout it is so exactly if the copy goes to lower addresses or there is no common element. move does the same if no element is the source of two indices, and leaves the sources that are no destinations moved-from. Elements outside of dst (for move: and src) do not change. For scrolling a part of an image without the full rows, the promise made by __restrict__ is kept; with full rows it is broken whenever source and destination overlap.", "quantifier": "all programs with arrays, views, ranks, strides, offsets and contents", "why_tests_cant": "the tests copy between separate arrays only; whether an overlapping copy is right depends on the direction and on the order the dims are sorted into", "anchors": ["include/array/array.h:2763-2772 copy", "include/array/array.h:2834-2843 move", "include/array/array.h:1801-1846 dynamic_optimize_copy_shapes", "include/array/array.h:1914-1924 copy_shape_traits", "include/array/array.h:1438-1445 for_each_value_in_order_inner_dense"]}
{"id": "C96", "title": "The reductions of the README and the tests", "statement": "For arrays of any sizes, bounds and strides: the epsilon function is the Levi-Civita symbol for any number of indices, and the reduction with it adds the cross product of each pair of vectors; into zeros, the results are orthogonal to both factors, by the reduction of dot products that follows. r = max(r, volume) leaves the largest of the old value and the elements of each plane; this is the maximum of the plane if the old value is a lower bound, and is not an element of the plane if the old value is above all of them, as the 0 of the README is for negative elements. Outer products and sums of planes are what they say. Filling W(j, k) = w^(j*k) by for_all_indices and reducing W(j, k) * x(k) gives the discrete Fourier transform; a second transform with 1/w gives n times x for a primitive n-th root of unity w, and the factors of the README are powers of one. Only the results (and W) change.", "quantifier": "all rings, linear orders or fields of elements, sizes, bounds, strides, bases and distinct loop indices", "why_tests_cant": "the tests use one size and one pattern of integers each, and some of their loops do not look at all results", "anchors": ["include/array/ein_reduce.h:418-443 ein_reduce", "include/array/ein_reduce.h:84-87 ein_op::operator()", "include/array/ein_reduce.h:193-196 assignments", "include/array/ein_reduce.h:265-273 dims_of a callable", "README.md:285-325", "test/ein_reduce.cpp:144-178, 200-215, 276-305"]}
{"id": "C97", "title": "When arrays allocate memory", "statement": "After every program of constructions, assignments, moves, swaps, reshapes, clears, make_copy/make_move and writes: the next statement calls the allocator's allocate exactly as often as a table says, from the shapes, allocators and ownership of the arrays it names (for example: assign of an array with the same shape never allocates; a move allocates only if the memory cannot be taken over; array(shape, value) allocates for the default shape as well, unless it is the same). The number of allocations not given back is the number of arrays that own memory, and 0 when no array is left. If the default shape needs no memory, an array owns memory exactly if the range of its flat offsets is not empty, and it is exactly that large. With std::allocator moves and swap allocate nothing. Assignment to an array of the same shape, and all statements on elements and views, leave every array object, so every pointer, as it is.", "quantifier": "all programs and statements allowed by C31, element types, allocators (propagating or not, with or without inline storage), shapes and default shapes", "why_tests_cant": "the tests count constructor calls for two shapes and five allocators, and count no allocations", "anchors": ["include/array/array.h:2282-2291 allocate", "include/array/array.h:2323-2331 deallocate", "include/array/array.h:2354-2570 constructors and assignments", "include/array/array.h:2619-2704 clear, reshape, swap", "include/array/array.h:1233-1236 flat_extent", "include/array/array.h:3115-3190 auto_allocator"]}
{"id": "C98", "title": "Einstein reductions tile by tile", "statement": "Loops over split dims of the result that fill each tile and ein_reduce into it, as the README's tiled matrix multiplication does, give exactly what fill and ein_reduce of the whole array give, for any operation and any arithmetic (also rounding), any order of the tiles, and even where the tiles of split<N> overlap; no assertion fails. Without fill, the same holds if tiles do not overlap, and in any case for assignments and maxima; in general an element is reduced once for each tile it is in (so += without fill is wrong where tiles overlap). The program of the README leaves the product of A and B in C. The tiles of split<N> have the compile-time extent N.", "quantifier": "all ranks, shapes, strides (non-zero for the result), cuts of each dim by split<N>, split or not at all, orders of the loops, expressions, operations, initial values and memories", "why_tests_cant": "the tests and examples run one tiled program with sizes that the tile sizes divide (or a few that they do not), and compare with a tolerance", "anchors": ["README.md:328-345 tiled matrix multiplication", "include/array/ein_reduce.h:399-436 ein_reduce", "include/array/array.h:581-642 split", "include/array/array.h:1191-1196, 2093-2096 operator[] with intervals", "include/array/array.h:2905-2908 fill"]}
{"id": "C99", "title": "The box kernel in float", "statement": "In binary32 arithmetic, for images of at most 2^18 pixels in each direction that become images of at most 2^21, the values of the kernel box are 0 or 1; at least one pixel has the value 1, namely each pixel that is within half a pixel of the position by more than a small tolerance and none that is beyond it by more. So the assertion of build_kernels holds, and the example program that resizes images ends and makes each component the plain average of the components of these pixels, with an explicit error (below 0.0004 for 8-bit images that are not made smaller), without its fraction. If the image is not made smaller, at most two pixels in each direction are averaged, and these are the nearest; if the size is the same, it is the pixel itself. Beyond these sizes the assertion can fail (2 pixels enlarged to 24623797).", "quantifier": "all sizes up to 2^18 (new: up to 2^21, height at least 64 for the program), components below 2^24, pixels and memories", "why_tests_cant": "the tests resize one image by a few rates and with a tolerance; which of the rounded positions lie within half a pixel depends on all bits of the sizes, and the failing sizes are far from those tested", "anchors": ["examples/resample/resample.h:31 box", "examples/resample/resample.h:100-150 build_kernels", "examples/resample/resample.cpp:74-105 main"]}
{"id": "C100", "title": "The program that measures resample", "statement": "The example program resample/benchmark, called with an input size and an output size of at least 64 rows, ends without undefined behaviour or a failing assertion, in debug and release builds, prints one row for each of the five kernels in the order of its table, and returns 0; each row is the time in milliseconds of one trial divided by its number of calls, within 9 units of rounding of double, and that trial took more than a second or is the tenth. The input, and the output of each call, are zeros. With fewer than four arguments it returns -1; two widths that are not numbers divide zero by zero; an output of less than 64 rows fails in the first call.", "quantifier": "all sizes below 2^29 (exact arithmetic, with the kernel lanczos<3>), sizes and rates of C91 (binary32, any kernel with good weights in the place of lanczos<3>), all measured clocks, further arguments and memories", "why_tests_cant": "the program is not tested; how often it calls resample depends on the clock, and each of up to 1111111111 calls per kernel must be defined", "anchors": ["examples/resample/benchmark.cpp:25-65", "examples/benchmark.h:24-45 benchmark", "examples/resample/resample.h resample"]}
{"id": "C101", "title": "Symmetries of resizing", "statement": "The program that resizes images, in exact arithmetic and with any of its polynomial kernels, commutes with reversing the columns, reversing the rows and exchanging rows and columns of the image. With a kernel that is nowhere negative (box, linear, both B-splines) a brighter image becomes a brighter one, and no component leaves the range of the components of the image. A component depends only on the same component of pixels within the radius of the kernel. Enlarging keeps a linear gradient away from the edges, for every kernel but box. With the interpolating cubic kernel components do leave the range of the image next to an edge; with box in binary32 a symmetric image can become an asymmetric one.", "quantifier": "all images, sizes from 1 (new rows: 64) to 2^29, all ranges of components, debug and release builds; the counterexamples are concrete images", "why_tests_cant": "the properties relate the results of two runs on related images, for all images and sizes; the program has no tests, and such cases are too many to run", "anchors": ["examples/resample/resample.cpp:74-105 main", "examples/resample/resample.h:31-74 kernels", "examples/resample/resample.h:103-157 build_kernels"]}
{"id": "C102", "title": "Loops over tiles of tiles", "statement": "Loops over pieces of pieces of an interval, with any number of levels of split(v, n) and split<N>(v), end exactly if each split gets a positive factor and each split<N> at least N indices in every piece of the loops around it; then the innermost pieces contain exactly the indices of the interval, each once if compile-time factors divide the extents they meet. Run-time factors can be combined in any way, compile-time ones in decreasing order. Splitting by n and then by m is the same as splitting by m exactly if m divides n or there is one outer piece. For arrays of any rank with any levels of tiles: the innermost tiles have the elements of the array with the same indices, and fill, copy, for_each_value and updates of values in all of them do the same as on the whole array. (split(v, 4) with split<3> inside never ends on 10 indices, because the last outer piece has 2.)", "quantifier": "all intervals, factors, numbers of levels, shapes of any rank, memories and values", "why_tests_cant": "the tests split once; which combinations of factors and extents work cannot be enumerated, and the bad ones do not end", "anchors": ["include/array/array.h:516-647 split", "README.md:225-246", "include/array/array.h:1997-2004 make_array_ref_at (operator())"]}
{"id": "C103", "title": "Resizing by whole factors with box", "statement": "If the number of columns and the number of rows each change by a whole factor (in either direction), the resize program with the kernel box gives, in exact arithmetic, the average of the block of pixels that belongs to the new pixel, without its fraction: blocks of q by r pixels when the image gets smaller, copies of pixel (x/q, y/r) when it gets larger, the same image when sizes do not change. In binary32 float the result is exactly the same if the sides of the blocks are powers of two and the sum over a block stays below 2^24 (so for every factor of enlargement), up to 2^18 pixels a side as long as 2*factor*(20*size+11) < 2^24. For other factors it is not: a white 8-bit image made smaller by the factor 9 becomes 254. In exact arithmetic, an image made larger by whole factors and then smaller by the same ones is the same image; but making an image smaller in two steps is not the same as in one. In binary32 too, enlarging an image by powers of two and reducing it again gives the same image, if the larger image is not too large.", "quantifier": "all sizes, factors, components up to top, images and addresses", "why_tests_cant": "the example has no expected values; whether the float positions select exactly the block and whether the sums are exact depends on all sizes and factors", "anchors": ["examples/resample/resample.h:31 box", "examples/resample/resample.h:103-228", "examples/resample/resample.cpp:67-105"]}
{"id": "C104", "title": "Einstein reductions on tiles of tiles", "statement": "fill and ein_reduce of every innermost tile of a result that is split level by level (each level splits the tiles of the one before, with split(v, n), split<N>(v) or whole dims) leave the memory that fill and ein_reduce of the whole result leave, and pass the same assertions: for any number of levels, any order of the tiles within a level, any operation and expression, overlapping tiles included, whenever each split of each level gets extents it allows. Without fill the same holds if the tiles of no level overlap or if the operation is idempotent; with run-time factors no condition on extents is needed. So a matrix product on tiles of tiles is the matrix product.", "quantifier": "all numbers of levels, cuts, orders, ranks, layouts, expressions, operations and memories", "why_tests_cant": "the example and its test tile once, for one size; the combinations of levels, extents and remainders are unbounded", "anchors": ["README.md:225-246", "README.md:328-345", "include/array/array.h:516-647 split", "include/array/array.h:2096-2099 operator()", "include/array/ein_reduce.h:418-465 ein_reduce"]}
{"id": "C105", "title": "The program that runs the tests", "statement": "The filter of the test program selects exactly the tests whose names it describes, where ? stands for one character, * for any number of characters and any other character for itself. The program runs the selected tests one after the other in the order in which they were added, prints how each of them ended and how many passed, were run and were skipped, and returns 0 exactly if all tests that it ran passed. If tests do not depend on each other, the order of registration changes neither the numbers nor the value returned. A filter that selects no test gives success.", "quantifier": "all filters, names, lists of tests, test bodies and states", "why_tests_cant": "the test program is not itself tested; filters and names are unbounded", "anchors": ["test/main.cpp:23-38 wildcard_match", "test/main.cpp:59-84 main"]}
{"id": "C106", "title": "What the pattern of the tests detects", "statement": "fill_pattern stores in each element the number of its index (1, 30, 1000, 10000, 1000000 times the components) plus the seed and changes nothing else; check_pattern returns exactly if each element has the number of its index plus the offset, and throws otherwise. If the extents do not let the numbers carry from one dim to the next, indices have different numbers, so check_pattern rejects every array in which an element comes from a wrong index. The check after any copy that the library allows passes. For rank 3 with more than 30 columns the check accepts wrong copies, and with more than five dims it reads past the end of the factors.", "quantifier": "all shapes of rank up to 5, layouts, offsets, seeds, element types and memories; for the detection, all mappings of indices", "why_tests_cant": "the tests rely on the pattern; whether it detects all wrong copies is a question about all wrong programs", "anchors": ["test/test.h:133-138 pattern_impl", "test/test.h:142-146 pattern", "test/test.h:149-157 fill_pattern", "test/test.h:160-171 check_pattern", "include/array/array.h:2930-2935 transform_index"]}
{"id": "C107", "title": "copy and the copies it is compared with", "statement": "One memcpy of a dense array, one memcpy for each row of a crop with dense rows, one memcpy for each row of dense pixels with their channels, and three loops over the elements in any layout all do exactly what copy does, and memcpy never gets overlapping regions, if the arrays do not share elements. Copying again changes nothing, so however often benchmark calls the two sides, both arrays have the pattern, and the tests of copy in test/performance.cpp pass exactly if the times compare as expected, for all sizes, crops and layouts. Assigning to all elements by for_each_index and by for_each_value gives the same memory for all ranks and layouts. With gaps between pixels the memcpy copies other elements.", "quantifier": "all sizes, crops, strides that satisfy the conditions, addresses, memories, numbers of calls and times", "why_tests_cant": "the tests use one size each, and their pattern does not detect all wrong copies at that size (C106)", "anchors": ["test/performance.cpp:22-104", "test/performance.cpp:106-119", "test/test.h:197-219 benchmark", "include/array/array.h:2763-2772 copy"]}
{"id": "C108", "title": "Work divided among threads", "statement": "Threads that each make several calls (fill, for_each_value, copy, move, transform_index, ein_reduce) one after the other have no data race if no call of one thread changes an element that a call of another one changes or reads, and however their accesses are interleaved, the result is that of the programs one after the other in any order. Calls that are independent can be divided among any number of threads in any way and any order, as when threads take them from a queue. Programs in phases, where all threads finish before the next phase begins, do what one thread would do. So the innermost tiles of a tiling by several levels of split can be filled, changed by for_each_value or copied into by any number of threads, and the tiles of a result can be filled and reduced by ein_reduce by any number of threads, with the result of one fill and one ein_reduce of the whole. (Without waiting between phases, a copy may get old values.)", "quantifier": "all lists of calls, numbers of threads, distributions of calls to threads, interleavings, shapes of any rank and strides, levels of splits, addresses and memories", "why_tests_cant": "tests run one schedule and one distribution out of exponentially many", "anchors": ["README.md:229-239", "README.md:338-344", "include/array/array.h:2763-2772 copy", "include/array/array.h:2905-2908 fill", "include/array/ein_reduce.h:418-443 ein_reduce"]}
{"id": "C109", "title": "The order and direction of the dims, and chains of copies", "statement": "If a view has the same elements under other indices (a transpose, or a reinterpret_shape with other mins or reversed dims, whose assertion holds), then for_each_value calls its function for the same elements, fill gives the same memory, copy gives the same memory if source and destination both get the new indices, transform_index gives the same memory if the function is given the new indices, and equal gives the same answer for two transposed arrays. generate gives the elements the same values if the dims of both views can be arranged so that each steps over everything the ones before it reach, so for every transpose of such an array (for a reversed array it does not). An array copied from array to array, in any layouts, arrives unchanged in each of them; copying there and back (also with a conversion that can be undone) changes only the other array; copy(a, t), copy(b, a), copy(t, b) exchanges a and b.", "quantifier": "all ranks, permutations, mins, extents, strides, addresses, memories, functions, and chains of any length", "why_tests_cant": "tests transpose or reverse a few arrays of rank 2 or 3; the loops are chosen from all strides at run time", "anchors": ["include/array/array.h:3082-3096 transpose", "include/array/array.h:3023-3029 reinterpret_shape", "include/array/array.h:2763-2772 copy", "include/array/array.h:2905-2935 fill, generate, transform_index", "include/array/array.h:2955-2968 equal"]}
