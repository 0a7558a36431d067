{"id": "C01", "title": "Set holds exactly the inserted-and-not-discarded elements", "statement": "After any sequence of constructions from a list, insert, discard, vector insert/discard and the element-wise + and - operators, x is reported as a member exactly when the last operation that mentioned x added it; the elements seen through s[0..size()-1] are strictly increasing and size() is the number of distinct members.", "quantifier": "every totally ordered element type, every finite operation history, every element", "why_tests_cant": "A test runs a handful of operation sequences; the claim is about every sequence of every length, and a bug can need one particular interleaving of operations and element order to show.", "anchors": ["librapid/include/librapid/datastructures/set.hpp: Set::Set, Set::insert, Set::discard, Set::operator+, Set::operator-, Set::operator[], Set::size"]}
{"id": "C02", "title": "Set::contains is correct for every reachable set", "statement": "contains(x) terminates, reads only inside the set and returns true exactly when x is one of the set's elements, including for the empty set and for x below or above every element.", "quantifier": "every reachable set of every size and every probe value", "why_tests_cant": "Binary search errors appear only at particular sizes and probe positions; a test samples a few of them.", "anchors": ["librapid/include/librapid/datastructures/set.hpp: Set::contains"]}
{"id": "C03", "title": "Set union, intersection and difference are the mathematical ones", "statement": "For reachable sets a and b, x is in a|b iff in a or in b, in a&b iff in both, in a-b iff in a and not in b, and each result is again a well-formed set (strictly increasing, so == decides equality of contents).", "quantifier": "every pair of reachable sets and every element", "why_tests_cant": "The merge loops have many exit paths depending on how the two element sequences interleave; there are infinitely many interleavings.", "anchors": ["librapid/include/librapid/datastructures/set.hpp: Set::operator|, Set::operator&, Set::operator-"]}
{"id": "C04", "title": "Set symmetric difference is the mathematical one", "statement": "For reachable sets a and b, x is in a^b exactly when it is in one of a and b but not in both.", "quantifier": "every pair of reachable sets and every element", "why_tests_cant": "The failing interleavings are those where one operand runs out first; a test with operands that end together passes.", "anchors": ["librapid/include/librapid/datastructures/set.hpp: Set::operator^"]}
{"id": "C05", "title": "Set equality and ordering depend only on contents", "statement": "Two reachable sets compare equal exactly when they have the same members, no matter in which order or how often elements were inserted or discarded; remove(x) succeeds exactly on members and then behaves as discard.", "quantifier": "every pair of operation histories", "why_tests_cant": "A test runs a handful of operation sequences; the claim is about every sequence of every length, and a bug can need one particular interleaving of operations and element order to show.", "anchors": ["librapid/include/librapid/datastructures/set.hpp: Set::operator<=>, Set::prune, Set::sort, Set::remove"]}
{"id": "C06", "title": "BitSet single-bit writes and reads behave like an array of booleans", "statement": "After any sequence of set(i, v) on a bit set of n bits, get(j) returns the value of the last write to j, or false if j was never written (indices below n).", "quantifier": "every size n, every write history, every index", "why_tests_cant": "A test runs a handful of operation sequences; the claim is about every sequence of every length, and a bug can need one particular interleaving of operations and element order to show.", "anchors": ["librapid/include/librapid/datastructures/bitset.hpp: BitSet::set, BitSet::get"]}
{"id": "C07", "title": "BitSet range set writes exactly the requested half-open range", "statement": "set(start, end, v) makes every bit in [start, end) (endpoints swapped if reversed) equal to v and leaves every other bit unchanged.", "quantifier": "every size, every pair of endpoints, every previous content", "why_tests_cant": "The outcome depends on the position of both endpoints relative to 64-bit word boundaries; a test on a few endpoints does not cover the same-word, adjacent-word and spanning cases with arbitrary surrounding bits.", "anchors": ["librapid/include/librapid/datastructures/bitset.hpp: BitSet::set(uint64_t, uint64_t, bool)"]}
{"id": "C08", "title": "BitSet any/none/all/popCount agree with the bits", "statement": "For a bit set of n bits: any() iff some bit i<n reads true, none() iff none does, all() iff every bit i<n reads true, popCount() is the number of true bits.", "quantifier": "every size n (not only multiples of the word size) and every content", "why_tests_cant": "Whether the summary is right depends on n mod 64 and on bits in the partial last word; sizes are unbounded.", "anchors": ["librapid/include/librapid/datastructures/bitset.hpp: BitSet::any, BitSet::all, BitSet::none, BitSet::popCount"]}
{"id": "C09", "title": "BitSet first/last locate the extreme set bits", "statement": "first() is the least i with get(i) true, last() the greatest; with no set bit both report that without reading outside the object.", "quantifier": "every size and every content, including empty", "why_tests_cant": "The empty case and all word positions of the extreme bit must hold; the space is 2^n.", "anchors": ["librapid/include/librapid/datastructures/bitset.hpp: BitSet::first, BitSet::last"]}
{"id": "C10", "title": "BitSet |, &, ^ act bit by bit, also across sizes", "statement": "Bit i of a after a|=b, a&=b, a^=b is the or/and/xor of bit i of a and bit i of b, where a bit beyond b's size counts as false, for operands of any two sizes; the binary forms |, &, ^ give the same bits in a new object; a bit set with no bits beyond its size keeps that property when the operand is not larger.", "quantifier": "every pair of sizes, every pair of contents, every bit index of the result", "why_tests_cant": "Sizes are template parameters; only finitely many instantiations are compiled into a test.", "anchors": ["librapid/include/librapid/datastructures/bitset.hpp: BitSet::operator|=, BitSet::operator&=, BitSet::operator^=, BitSet::operator|, BitSet::operator&, BitSet::operator^"]}
{"id": "C11", "title": "BitSet shifts move every bit by the requested distance", "statement": "(b << k) has bit i equal to bit i-k of b (false for i<k); (b >> k) has bit i equal to bit i+k (false beyond the size); for every k, negative k shifting the other way, without touching memory outside the object and with bits at or above the size staying clear.", "quantifier": "every size, every content, every shift distance", "why_tests_cant": "Failures sit at distances that are multiples of 64 or exceed the size; a test with a small distance passes.", "anchors": ["librapid/include/librapid/datastructures/bitset.hpp: BitSet::operator<<=, BitSet::operator>>=, BitSet::operator<<, BitSet::operator>>"]}
{"id": "C12", "title": "BitSet complement flips every bit inside the size", "statement": "Bit i of ~b is the negation of bit i of b for each i below the size, ~~b == b, and no bit beyond the size is set.", "quantifier": "every size and every content", "why_tests_cant": "The mask of the last word depends on n mod 64.", "anchors": ["librapid/include/librapid/datastructures/bitset.hpp: BitSet::operator~, BitSet::highMask"]}
{"id": "C13", "title": "BitSet text form and string constructor are inverse", "statement": "str() prints one character per bit, most significant first, and constructing a bit set of the same size from that string gives an equal bit set; constructing from any string of zero/one characters no longer than the size puts the last character in bit 0.", "quantifier": "every size and every content, every 0/1 string", "why_tests_cant": "Round trips must hold for all 2^n contents of every n.", "anchors": ["librapid/include/librapid/datastructures/bitset.hpp: BitSet::BitSet(const std::string &, char, char), BitSet::str"]}
{"id": "C14", "title": "Shape sizes are the product of the extents", "statement": "size() of a Shape, MatrixShape or VectorShape is the product of its extents as a mathematical integer (1 for a 0-dimensional Shape); subshape(a, b) has exactly the extents a..b-1 of the original, with -1 meaning the end, and is rejected outside 0<=a<=b<=ndim.", "quantifier": "every shape of every dimensionality and every sub-range", "why_tests_cant": "Overflow and boundary cases appear only for extreme extents; the number of shapes is unbounded.", "anchors": ["librapid/include/librapid/array/shape.hpp: Shape::size, MatrixShape::size, VectorShape::size, Shape::subshape, MatrixShape::subshape, VectorShape::subshape"]}
{"id": "C15", "title": "Shape comparison is equality of extent lists", "statement": "Two shapes, of the same or of different shape classes, compare equal exactly when they have the same number of dimensions and the same extents; the n-ary match used to validate expressions with several operands succeeds exactly when all operand shapes are pairwise equal.", "quantifier": "every pair and every finite tuple of shapes", "why_tests_cant": "Arity and dimensionality are unbounded; a test tries a few tuples.", "anchors": ["librapid/include/librapid/array/shape.hpp: operator==, operator!=, detail::shapesMatchExtractor, shapesMatch"]}
{"id": "C16", "title": "Multi-index access is a bijection between valid coordinates and storage", "statement": "For an array of shape (d0..dk-1), a(i0,..,ik-1) with every 0<=ij<dj touches exactly one storage element inside the array, distinct coordinates touch distinct elements, every storage element is reached, the order is row major; any other coordinate list is rejected when assertions are on.", "quantifier": "every shape of every dimensionality, every coordinate list", "why_tests_cant": "Injectivity and surjectivity quantify over all pairs of coordinates of all shapes.", "anchors": ["librapid/include/librapid/array/arrayContainer.hpp: ArrayContainer::operator()", "librapid/include/librapid/array/strideTools.hpp: Stride::Stride"]}
{"id": "C17", "title": "Chained subscripts equal multi-index access", "statement": "a[i][j]... down to a scalar denotes the same element as a(i, j, ...), for reads and writes, and an index outside its extent at any level is rejected.", "quantifier": "every shape, every coordinate, every number of chained subscripts", "why_tests_cant": "The offset is accumulated through a chain of views; agreement must hold at every depth.", "anchors": ["librapid/include/librapid/array/generalArrayView.hpp: GeneralArrayView::operator[], ArrayContainer::operator[]"]}
{"id": "C18", "title": "Flat access to a view enumerates its elements in row-major order", "statement": "For a view obtained by any chain of subscripts, reading flat position k gives the k-th element of the sub-array in row-major order, for every k below the view's size, never leaving the underlying array; evaluating the view gives an array with the same elements.", "quantifier": "every shape, every chain of subscripts, every flat position", "why_tests_cant": "Mixed-radix decoding must be right for all positions of all shapes.", "anchors": ["librapid/include/librapid/array/generalArrayView.hpp: GeneralArrayView::scalar, GeneralArrayView::eval, GeneralArrayView::packet"]}
{"id": "C19", "title": "Copying a view denotes the same elements", "statement": "A view copied from another view reads and writes the same elements of the same array as the original.", "quantifier": "every shape and every chain of subscripts that produced the view", "why_tests_cant": "Only views with a non-zero offset expose a lost offset; a test that copies row 0 passes.", "anchors": ["librapid/include/librapid/array/generalArrayView.hpp: GeneralArrayView::GeneralArrayView(const GeneralArrayView &)"]}
{"id": "C20", "title": "Assigning to a view writes its elements and nothing else", "statement": "view = expression of the same shape stores element k of the expression (row-major) in element k of the view for every k, exactly once each, and leaves every other element of the underlying array unchanged; a shape mismatch is rejected before anything is written.", "quantifier": "every shape, every view, every source array, expression or view", "why_tests_cant": "The copy is an odometer loop whose pointer arithmetic must be right for every dimensionality and extent combination.", "anchors": ["librapid/include/librapid/array/generalArrayView.hpp: GeneralArrayView::operator=, GeneralArrayView::eval"]}
{"id": "C21", "title": "Vectorised evaluation equals element-wise evaluation", "statement": "Assigning a lazy expression to an array stores at every index i the scalar value of the expression at i, whatever the size and the SIMD packet width, with no element skipped, repeated or written out of bounds.", "quantifier": "every size, every packet width, every expression", "why_tests_cant": "Errors are confined to sizes near multiples of the packet width, which differ by platform and type.", "anchors": ["librapid/include/librapid/array/assignOps.hpp: detail::assign"]}
{"id": "C22", "title": "Parallel evaluation gives the sequential result under every schedule", "statement": "With several threads, an assignment produces the same array as the single-threaded assignment for every interleaving of the loop iterations, for dynamic and fixed-size arrays, vectorised or not.", "quantifier": "every size, packet width, number of threads and interleaving", "why_tests_cant": "Schedules cannot be enumerated by running the program.", "anchors": ["librapid/include/librapid/array/assignOps.hpp: detail::assignParallel"]}
{"id": "C23", "title": "Lazy expressions mean what they say", "statement": "For an expression tree built from arrays, scalars and element-wise operations, element i of the evaluated result is the tree evaluated on the i-th elements; building it never changes the operands; operands of different shapes anywhere in the tree are rejected.", "quantifier": "every expression tree of every depth, every operand content, every index", "why_tests_cant": "Trees are unbounded in depth and shape.", "anchors": ["librapid/include/librapid/array/function.hpp: detail::Function", "librapid/include/librapid/array/operations.hpp: operator+, operator-, operator*, operator/, typetraits::TypeInfo<detail::Plus>::getShape"]}
{"id": "C24", "title": "Each named element-wise function computes the function it names", "statement": "sin, cos, ..., asinh, acosh, atanh, exp, exp2, exp10, sqrt, ..., floor, ceil applied to an array give at each index the mathematical function of that name of the element there.", "quantifier": "every named function, every array, every element value", "why_tests_cant": "A wrong functor may agree with the right one at the sampled points (0 is a fixed point of both sinh and asinh).", "anchors": ["librapid/include/librapid/array/operations.hpp: detail::Asinh, detail::Acosh, detail::Atanh, detail::Exp2, detail::Exp10"]}
{"id": "C25", "title": "Storage resize keeps the common prefix", "statement": "resize(n) leaves the first min(old size, n) elements unchanged and makes size() equal n; resize with the discard form makes size() equal n.", "quantifier": "every content, every old and new size", "why_tests_cant": "Sizes are unbounded and boundary cases (growing, shrinking, same size, zero) interact with ownership.", "anchors": ["librapid/include/librapid/array/storage.hpp: Storage::resize, Storage::resizeImpl"]}
{"id": "C26", "title": "Storage objects never double-free, and values are independent", "statement": "In every program that constructs, copies, moves, assigns, resizes and destroys owning storages, each allocation is freed at most once and never used after it was freed; writing through one storage never changes another owning storage.", "quantifier": "every finite history over any number of storage objects", "why_tests_cant": "A test runs a handful of operation sequences; the claim is about every sequence of every length, and a bug can need one particular interleaving of operations and element order to show.", "anchors": ["librapid/include/librapid/array/storage.hpp: Storage::Storage, Storage::operator=, Storage::~Storage, detail::safeDeallocate"]}
{"id": "C27", "title": "Storage releases all memory it acquired", "statement": "When every storage object of a history has been destroyed, every allocation made during the history has been freed.", "quantifier": "every finite history over any number of storage objects", "why_tests_cant": "A test runs a handful of operation sequences; the claim is about every sequence of every length, and a bug can need one particular interleaving of operations and element order to show.", "anchors": ["librapid/include/librapid/array/storage.hpp: Storage::operator=(Storage &&), Storage::~Storage"]}
{"id": "C28", "title": "Copy assignment makes the target equal to the source", "statement": "After a = b, a has the size and elements of b, for every previous state of a and every b, including empty and moved-from storages.", "quantifier": "every pair of reachable storage states", "why_tests_cant": "The empty and moved-from states are reached only by particular histories.", "anchors": ["librapid/include/librapid/array/storage.hpp: Storage::operator=(const Storage &), FixedStorage::copy"]}
{"id": "C29", "title": "An array's shape always matches its element count", "statement": "After every sequence of array operations, including ones that failed with an exception, the product of the array's extents equals the number of elements it stores, so every in-shape index is readable.", "quantifier": "every finite history of construction, assignment, resize and failed assignment", "why_tests_cant": "A failed operation in the middle of a history is rarely tested, and the damage shows only in a later access.", "anchors": ["librapid/include/librapid/array/arrayContainer.hpp: ArrayContainer::assign, ArrayContainer::operator=, ArrayContainer::resize"]}
{"id": "C30", "title": "Arrays built from nested data hold that data", "statement": "Constructing from a nested initializer list or vector gives an array whose shape is the nesting's extents and whose element (i,j,..) is the nested item [i][j]..; ragged nesting is rejected and never yields an array.", "quantifier": "every nesting depth, every extent, every content", "why_tests_cant": "Depth and extents are unbounded and raggedness can hide at any position.", "anchors": ["librapid/include/librapid/array/arrayFromData.hpp: ArrayContainer::fromData"]}
{"id": "C31", "title": "ordered, arange and linspace produce the documented progressions", "statement": "ordered(shape) counts 0,1,2,.. in row-major order; arange(start, stop, step) yields start+i*step for exactly the i with start+i*step strictly before stop; linspace(a, b, n) has n evenly spaced values from a, ending at b when the end is included.", "quantifier": "every start, stop, step, count", "why_tests_cant": "Counts and endpoints depend on divisibility; arguments are unbounded.", "anchors": ["librapid/include/librapid/array/pseudoConstructors.hpp: ordered, arange, linspace"]}
{"id": "C32", "title": "Comma initialisation fills elements in order", "statement": "a << x0, x1, ..., xn-1 sets flat elements 0..n-1 of a to the given values in order and leaves the others unchanged.", "quantifier": "every array and every list of values not longer than it", "why_tests_cant": "List lengths are unbounded.", "anchors": ["librapid/include/librapid/array/commaInitializer.hpp: detail::CommaInitializer", "librapid/include/librapid/array/arrayContainer.hpp: ArrayContainer::operator<<"]}
{"id": "C33", "title": "Transposing swaps coordinates and scales", "statement": "Evaluating alpha * transpose(a) for a 2-D array a of any shape gives b with b(j,i) = alpha*a(i,j) for all i, j, whatever the cache block size, thread count and interleaving.", "quantifier": "every matrix shape, scale, block size and schedule", "why_tests_cant": "Blocking and threading create edge cases at every non-multiple size and every schedule.", "anchors": ["librapid/include/librapid/array/linalg/transpose.hpp: kernels::cpu::transposeImpl (generic)"]}
{"id": "C34", "title": "The SIMD transpose paths agree with the plain one", "statement": "For float and double matrices the vectorised transposes give the same result as the generic definition b(j,i) = alpha*a(i,j), for every shape and scale, without reading or writing outside the arrays.", "quantifier": "every matrix shape, scale and content", "why_tests_cant": "Correctness depends on whether the shape is square and on the remainder of both extents by the kernel size.", "anchors": ["librapid/include/librapid/array/linalg/transpose.hpp: kernels::cpu::transposeFloatKernel, transposeDoubleKernel, transposeImpl(float), transposeImpl(double)"]}
{"id": "C35", "title": "Transposing with an axis list permutes exactly those axes", "statement": "transpose(a, axes) has extent i equal to extent axes[i] of a and element at permuted coordinates equal to a's element.", "quantifier": "every shape and every permutation of its axes", "why_tests_cant": "Permutations and shapes are unbounded; the default reversed axes hide a dropped argument.", "anchors": ["librapid/include/librapid/array/linalg/transpose.hpp: Transpose::Transpose, Transpose::applyTo"]}
{"id": "C36", "title": "Scalars and transposes inside a product are folded without changing its value", "statement": "dot(x, y) where x and y are built from matrices by any nesting of transpose and multiplication by scalars equals the mathematical product of what x and y denote.", "quantifier": "every nesting depth of transposes and scalar factors on either side", "why_tests_cant": "The folding is recursive on the expression type; nestings are unbounded.", "anchors": ["librapid/include/librapid/array/linalg/arrayMultiply.hpp: dotHelper, dot"]}
{"id": "C37", "title": "Matrix-matrix products are correct for every shape and transposition", "statement": "dot(op(A), op(B)) evaluates to the matrix whose (i,j) element is alpha times the sum over l of op(A)(i,l)*op(B)(l,j), of shape rows(op A) x cols(op B); incompatible inner extents are rejected.", "quantifier": "all extents, both transposition flags, all contents and alpha", "why_tests_cant": "Leading dimensions and loop bounds differ per flag combination and non-square shape.", "anchors": ["librapid/include/librapid/array/linalg/arrayMultiply.hpp: ArrayMultiply::applyTo, calculateShape, matmulClass", "librapid/include/librapid/array/linalg/level3/gemm.hpp: gemm", "librapid/cxxblas/level3/gemm.tcc: gemm_generic", "librapid/cxxblas/level2/gemv.tcc: gemv_generic"]}
{"id": "C38", "title": "Matrix-vector products are correct for every shape and transposition", "statement": "dot(op(A), x) with a 2-D A and a 1-D x evaluates to the vector with element i equal to alpha times the sum over l of op(A)(i,l)*x(l), reading only inside A and x.", "quantifier": "all extents, both transposition settings, all contents", "why_tests_cant": "The transposed non-square case uses other loop bounds than the square one.", "anchors": ["librapid/include/librapid/array/linalg/arrayMultiply.hpp: ArrayMultiply::applyTo", "librapid/include/librapid/array/linalg/level2/gemv.hpp: gemv", "librapid/cxxblas/level2/gemv.tcc: gemv_generic"]}
{"id": "C39", "title": "Scaled matrix sums combine operands with their own scales", "statement": "Evaluating a^T*alpha + b*beta style expressions through the fused routine stores alpha*op(a)(i,j) + beta*op(b)(i,j) including the scale each transpose object carries.", "quantifier": "all extents, transposition combinations and scales", "why_tests_cant": "The dropped scale is visible only when a transpose object carries a scale different from one.", "anchors": ["librapid/include/librapid/array/linalg/level3/geam.hpp: geam, assign"]}
{"id": "C40", "title": "Rounding modes round as documented", "statement": "round(x, d, mode) returns the multiple of 10^-d selected by the mode: nearest with ties away for the default, next away from zero for UP, toward zero for DOWN/TRUNC, nearest with ties to even for HALF_EVEN.", "quantifier": "every real value, every digit count, every mode", "why_tests_cant": "Ties and near-ties of both signs in each mode form an infinite family.", "anchors": ["librapid/include/librapid/math/round.hpp: round, RoundingMode"]}
{"id": "C41", "title": "roundTo and roundUpTo return the right multiple", "statement": "roundTo(x, v) is a multiple of v nearest to x; roundUpTo(x, v) is the least multiple of v not below x; for every x including negatives and exact multiples.", "quantifier": "every x and every positive v, integer or real", "why_tests_cant": "Negative arguments and odd integer steps are exactly the inputs rarely sampled.", "anchors": ["librapid/include/librapid/math/round.hpp: roundTo, roundUpTo"]}
{"id": "C42", "title": "clamp, lerp, map, smoothStep and isClose satisfy their defining laws", "statement": "clamp(x, lo, hi) is the point of [lo,hi] nearest x (limits swapped if reversed, as documented); lerp(t,a,b) = a+t(b-a) in exact arithmetic in every branch; map is the affine map between the intervals; smoothStep is 0 below, 1 above, within [0,1] and monotone; isClose is reflexive and symmetric.", "quantifier": "all real arguments", "why_tests_cant": "The laws quantify over a continuum and over branch combinations.", "anchors": ["librapid/include/librapid/math/utilityFunctions.hpp: clamp, lerp, smoothStep, isClose", "librapid/include/librapid/math/coreMath.hpp: map"]}
{"id": "C43", "title": "Random numbers respect their range", "statement": "random(lo, hi) lies in [lo, hi] and randint(lo, hi) is an integer in [lo, hi], for every draw of the underlying generator and every lo <= hi including negative ones.", "quantifier": "every lo, hi and every value of the underlying uniform draw", "why_tests_cant": "The out-of-range outcomes for negative bounds may have tiny probability.", "anchors": ["librapid/include/librapid/math/random.hpp: random, randint"]}
{"id": "C44", "title": "Seeding makes random sequences reproducible", "statement": "After setSeed(s), the sequence of values returned by any program of random, randint and randomGaussian calls is a function of s and the calls, not of what was drawn before seeding.", "quantifier": "every history before the seed call and every call sequence after it", "why_tests_cant": "The claim compares all histories; hidden generator state survives in ways one run does not show.", "anchors": ["librapid/include/librapid/math/random.hpp: random, randomGaussian", "librapid/src/global.cpp: setSeed"]}
{"id": "C45", "title": "Dual numbers compute exact derivatives", "statement": "Evaluating any expression built from +, -, *, / and the provided elementary functions on (x, 1) yields (f(x), f'(x)) wherever every intermediate operation is differentiable.", "quantifier": "every expression tree, every point of its domain", "why_tests_cant": "Expressions are unbounded; numerical tests see only sample points with tolerance.", "anchors": ["librapid/include/librapid/autodiff/dual.hpp: Dual, operator+, operator-, operator*, operator/, sin, cos, tan, exp, log, pow, sqrt"]}
{"id": "C46", "title": "Dual compound assignment equals the binary operator", "statement": "a op= b leaves in a the value of a op b for +, -, *, /, value and derivative, also when b is a itself.", "quantifier": "all duals", "why_tests_cant": "Value agrees and only the derivative differs; needs an identity over all reals.", "anchors": ["librapid/include/librapid/autodiff/dual.hpp: Dual::operator+=, Dual::operator-=, Dual::operator*=, Dual::operator/="]}
{"id": "C47", "title": "half to float conversion is exact and reversible", "statement": "Converting any half to float gives a float of exactly the same value (same sign, infinities and NaN preserved), and converting that float back gives the original half.", "quantifier": "all 65536 half bit patterns", "why_tests_cant": "The statement relates bit patterns to real values, which an executable test on the same conversion code cannot state independently.", "anchors": ["librapid/include/librapid/math/half.hpp: detail::halfToFloat, detail::floatToHalf"]}
{"id": "C48", "title": "float to half conversion rounds to nearest and is defined for every float", "statement": "For every float, conversion to half is defined and gives the nearest representable half (infinity beyond the range, zero/subnormal below), without undefined shifts.", "quantifier": "all 2^32 float bit patterns", "why_tests_cant": "2^32 inputs with subtle carry and subnormal cases.", "anchors": ["librapid/include/librapid/math/half.hpp: detail::floatToHalf, half::half(float)"]}
{"id": "C49", "title": "half comparisons order values like the reals", "statement": "For halves a, b: a<b, a<=b, a==b, a>b, a>=b agree with the order of the represented values; +0 equals -0 and comparisons with NaN are false; unary minus flips the sign; the named constants have the named values.", "quantifier": "all pairs of half bit patterns", "why_tests_cant": "2^32 pairs; signed zero and NaN pairs are rarely sampled.", "anchors": ["librapid/include/librapid/math/half.hpp: operator<, operator==, operator<=, operator>, operator>=, half::operator-, TypeInfo<half>"]}
{"id": "C50", "title": "half increments follow the C++ contract", "statement": "++h and h++ both leave h one larger, ++h returns the new and h++ the old value (and likewise --).", "quantifier": "every half value and every sequence of increments", "why_tests_cant": "The contract relates result and side effect for all values.", "anchors": ["librapid/include/librapid/math/half.hpp: half::operator++, half::operator--"]}
{"id": "C51", "title": "Complex arithmetic is the field of complex numbers", "statement": "+, -, * and / and their in-place and mixed scalar forms on Complex agree with complex-number arithmetic for every operand (division by zero gives the NaN pair), also when an operand aliases the target; assignment between complex types preserves both parts.", "quantifier": "all complex operands, all aliasing patterns", "why_tests_cant": "Branchy division (which component dominates) and aliasing must hold for a continuum of values.", "anchors": ["librapid/include/librapid/math/complex.hpp: Complex::_add, Complex::_sub, Complex::_mul, Complex::_div, Complex::operator=, operator+, operator-, operator*, operator/"]}
{"id": "C52", "title": "Complex elementary functions compute the functions they name", "statement": "exp, sin, cos, sinh, cosh, tanh, tan and sqrt of a Complex with finite components equal the complex functions (principal branch, non-negative real part for sqrt) in exact arithmetic.", "quantifier": "all finite complex arguments", "why_tests_cant": "The formulas branch on quadrant and magnitude; identities hold over a continuum.", "anchors": ["librapid/include/librapid/math/complex.hpp: exp, sin, cos, tan, sinh, cosh, tanh, sqrt, _fabs, polar"]}
{"id": "C53", "title": "Serialisation round-trips and rejects foreign or truncated data", "statement": "Deserialising what was serialised for the same type returns the same bytes; data of another type is rejected; data cut short at any point is rejected and never read past its end.", "quantifier": "every object content, every truncation point, every type pair with different tags", "why_tests_cant": "Crash points while writing can cut the file at any byte.", "anchors": ["librapid/include/librapid/utils/serialize.hpp: serialize, deserialize, Serializer::write, Serializer::read"]}
{"id": "C54", "title": "Fixed-size vectors compute component-wise, and reductions ignore padding", "statement": "Operations on Vector<T,N> act component by component on the N components; sum, dot, mag2 depend on exactly those N components whatever the SIMD width and the previous content of memory; cross is orthogonal to both arguments.", "quantifier": "every N, every packet width, every content, every padding content", "why_tests_cant": "Padding content is whatever memory held; a test usually sees zeros.", "anchors": ["librapid/include/librapid/math/vectorImpl.hpp: SimdVectorStorage, GenericVectorStorage, Vector, dot, cross, sum, mag2"]}
{"id": "C55", "title": "Printed arrays show every element in order within balanced brackets", "statement": "Formatting an array prints every element exactly once in row-major order, with bracket nesting equal to the shape, and elements of the same last-axis column aligned to the same width.", "quantifier": "every shape and every content", "why_tests_cant": "Shapes and dimensionalities are unbounded.", "anchors": ["librapid/include/librapid/array/generalArrayViewToString.hpp: detail::arrayViewToString"]}
{"id": "C56", "title": "pow10 returns the power of ten", "statement": "fastmath::pow10(e) equals 10^e for every integer e (in exact arithmetic).", "quantifier": "every integer exponent", "why_tests_cant": "The table and loop parts must agree at every exponent, one wrong entry is enough.", "anchors": ["librapid/src/fastMath.cpp: fastmath::pow10"]}
{"id": "C57", "title": "Multi-precision text places the decimal point correctly", "statement": "The text of an mpf value with digit string d and exponent e denotes sign * 0.d * base^e, with at least one digit before the point.", "quantifier": "every digit string, exponent and sign", "why_tests_cant": "Padding depends on the relation of exponent and length, both unbounded.", "anchors": ["librapid/src/multiprecToString.cpp: str(const mpf &, int64_t, int)"]}
{"id": "C58", "title": "Time formatting preserves the duration", "statement": "formatTime(t) returns a number and unit whose product is t, with the number below the unit's divisor (except years), so the largest suitable unit is used.", "quantifier": "every non-negative duration and scale", "why_tests_cant": "Unit boundaries in a continuum.", "anchors": ["librapid/include/librapid/utils/time.hpp: formatTime"]}
{"id": "C59", "title": "Sigmoid activation and its backward pass agree", "statement": "forward maps into (0,1) and is increasing; backward applied to forward's output is the derivative of forward at the input.", "quantifier": "every real input", "why_tests_cant": "A continuum of inputs and an analytic derivative.", "anchors": ["librapid/include/librapid/ml/activations.hpp: Sigmoid"]}
{"id": "C60", "title": "GPU kernels compute the same products as the CPU path under every schedule", "statement": "The OpenCL matrix-vector and transpose kernels and the CUDA/OpenCL matrix product kernels leave in the output the mathematical result whatever the order in which work items run.", "quantifier": "all extents, launch geometries that cover the output, all interleavings of work items between barriers", "why_tests_cant": "Interleavings and geometries cannot be enumerated by running.", "anchors": ["librapid/include/librapid/array/linalg/level2/gemv.cl", "librapid/include/librapid/array/linalg/level3/gemm.cu", "librapid/include/librapid/opencl/kernels/transpose.cl"]}
{"id": "C61", "title": "Map lookups with a default never lose or invent entries", "statement": "contains(k) is true exactly for keys inserted; get(k, d) returns the stored value if present and d otherwise, and does not change the map.", "quantifier": "every insertion history and key", "why_tests_cant": "A test runs a handful of operation sequences; the claim is about every sequence of every length, and a bug can need one particular interleaving of operations and element order to show.", "anchors": ["librapid/include/librapid/datastructures/map.hpp: Map::contains, Map::get, UnorderedMap"]}
{"id": "C62", "title": "Storage constructors, element access and moves have exact contents", "statement": "A storage built from a list holds the list's values in order; one built by size and value holds that many copies; s[i]=v changes element i only; after a move the target holds the source's elements and the source is empty; with assertions enabled out-of-range access throws and changes nothing.", "quantifier": "every content, size, index and prior memory state", "why_tests_cant": "Aliasing and indices range over unbounded sets, and a wrong transfer of ownership shows only later.", "anchors": ["librapid/include/librapid/array/storage.hpp: Storage::Storage, Storage::operator[], Storage::operator=(Storage&&)"]}
{"id": "C63", "title": "Sums and differences of halves are correctly rounded", "statement": "x + y and x - y of two halves are a half nearest to the exact sum or difference (infinity from 65520 on); a NaN operand gives NaN, infinities follow the usual rules.", "quantifier": "all 2^32 pairs of halves", "why_tests_cant": "2^32 pairs with bit-level branch-free code; only a few are ever exercised.", "anchors": ["librapid/include/librapid/math/half.hpp: detail::halfAdd, detail::halfSub, half::operator+=, half::operator-="]}
{"id": "C64", "title": "A successful write is followed by a faithful read", "statement": "When Serializer::write(path) returns true, Serializer::read(path) returns true and restores the same bytes.", "quantifier": "every content, path, and state of the device and of the file's permissions", "why_tests_cant": "Full devices, permissions and the newline translation of another system do not occur in a test run.", "anchors": ["librapid/include/librapid/utils/serialize.hpp: Serializer::write, Serializer::read, detail::fileBinMode"]}
{"id": "C65", "title": "Complex inverse functions, logarithms and powers invert what they should", "statement": "For finite arguments whose intermediate results are representable: exp(log z) = z for z != 0, log takes the principal value, sqrt(z)^2 = z with non-negative real part, pow agrees with exp(w log z), and asin, acos, atan, asinh, acosh, atanh are right inverses of sin, cos, tan, sinh, cosh, tanh with results in the principal strip, on every branch of the case distinctions.", "quantifier": "all complex arguments, all branches", "why_tests_cant": "The functions choose between many formulas by magnitude and sign; agreement on branch cuts and near them is not reached by sampling.", "anchors": ["librapid/include/librapid/math/complex.hpp: log, pow, sqrt, asin, acos, atan, asinh, acosh, atanh, detail::algorithm::logP1, logHypot"]}
{"id": "C66", "title": "Element-wise expressions on a GPU give every element its value under every schedule", "statement": "Assigning an expression to an array on the OpenCL or CUDA backend stores at each index the value of the expression at that index, also when the destination occurs in the expression, and changes nothing else, whatever the order in which work items and arguments are evaluated; every functor has a kernel.", "quantifier": "all expressions, sizes, interleavings, evaluation orders and aliasing between operands and destination", "why_tests_cant": "Interleavings, depths and sizes are unbounded; a race or an index overflow appears only on particular schedules or very large arrays.", "anchors": ["librapid/include/librapid/array/assignOps.hpp: openCLTupleEvaluator, cudaTupleEvaluator", "librapid/include/librapid/opencl/kernels/arithmetic.cl", "librapid/include/librapid/opencl/kernels/abs.cl", "librapid/include/librapid/cuda/kernels/arithmetic.cu", "librapid/include/librapid/opencl/openclKernelProcessor.hpp: runLinearKernel", "librapid/include/librapid/array/operations.hpp: TypeInfo<...>::kernelName"]}
{"id": "C67", "title": "fillRandom on a GPU is determined by the seeds and respects its range", "statement": "After seeding, fillRandom(a, lower, upper) gives the same array whatever the schedule, with every element in [lower, upper].", "quantifier": "all sizes, seeds, bounds and interleavings of work items", "why_tests_cant": "A race between work items on the shared seeds shows only for some sizes and schedules; elements out of range occur for rare seeds.", "anchors": ["librapid/include/librapid/opencl/kernels/fill.cl: fillRandom", "librapid/include/librapid/cuda/kernels/fill.cu: fillRandom", "librapid/include/librapid/array/fill.hpp: fillRandom"]}
{"id": "C68", "title": "The generator of the GPU kernels is MT19937", "statement": "The sequence of 32-bit outputs for a seed is that of the Mersenne twister MT19937 with this seed (std::mt19937).", "quantifier": "every seed and every position in the sequence", "why_tests_cant": "The sequence is infinite and there are 2^32 seeds.", "anchors": ["librapid/include/librapid/opencl/kernels/fill.cl: _mt19937_uint, _mt19937_loop_uint, mt19937_seed", "librapid/include/librapid/cuda/kernels/fill.cu"]}
{"id": "C69", "title": "A storage on the GPU is a value", "statement": "CudaStorage and OpenCLStorage behave as values: after any sequence of constructions, copies, moves, assignments, resizes, element writes and destructions each storage has exactly the size and elements that the sequence gives it, no two storages share device memory, memory is freed once, and nothing is leaked.", "quantifier": "all sequences of operations on any number of storages of any sizes, both backends, with and without assertions", "why_tests_cant": "Sharing, stale contents and double frees depend on the sequence of operations; sequences are unbounded, and GPU errors are often silent.", "anchors": ["librapid/include/librapid/cuda/cudaStorage.hpp: CudaStorage, detail::cudaSafeAllocate, detail::cudaSafeDeallocate", "librapid/include/librapid/opencl/openclStorage.hpp: OpenCLStorage", "librapid/include/librapid/core/cudaConfig.hpp: cudaSafeCall"]}
{"id": "C70", "title": "Range-based for loops visit every element once", "statement": "for (auto x : a) visits a[0], a[1], ..., and nesting one loop per dimension visits every element of the array exactly once, in row-major order.", "quantifier": "all shapes, any number of nested loops, any element type, with and without assertions", "why_tests_cant": "Tests iterate over a few small arrays; the number of dimensions and the extents are unbounded, and a lost offset shows only below the first sub-array.", "anchors": ["librapid/include/librapid/array/arrayIterator.hpp: ArrayIterator", "librapid/include/librapid/array/arrayContainer.hpp: begin, end", "librapid/include/librapid/array/generalArrayView.hpp: begin, end, GeneralArrayView(const GeneralArrayView &)"]}
{"id": "C71", "title": "The level-1 vector routines of cxxblas update exactly their vector", "statement": "copy, ccopy, swap, axpy, acxpy, raxpy, racxpy, scal, rscal, axpby, acxpby and rot leave in their output vector(s) the values that BLAS prescribes, for positive and negative increments, touch no other memory, and with a scale of zero do not read the old output.", "quantifier": "all lengths, nonzero increments, positions in memory, values over any commutative ring with conjugation, also for identical input and output", "why_tests_cant": "Lengths, strides and values are unbounded; a write outside the vector or a wrong start for negative increments shows only in neighbouring memory.", "anchors": ["librapid/cxxblas/level1/copy.tcc, swap.tcc, axpy.tcc, scal.tcc, rot.tcc", "librapid/cxxblas/level1extensions/ccopy.tcc, acxpy.tcc, raxpy.tcc, racxpy.tcc, rscal.tcc, axpby.tcc, acxpby.tcc"]}
{"id": "C72", "title": "The level-1 reductions of cxxblas are the sums, norms and positions they are named for", "statement": "dotu, dot, asum, nrm2 and iamax return the (conjugated) inner product, the sum of sizes, the Euclidean norm (real and complex, computed without squaring a quotient above 1), and the first position of an element of largest size, -1 for the empty vector; memory is unchanged.", "quantifier": "all lengths, increments (also negative and zero) and values in exact arithmetic", "why_tests_cant": "Lengths and values are unbounded; nrm2 rescales depending on the order of the elements.", "anchors": ["librapid/cxxblas/level1/dot.tcc, asum.tcc, nrm2.tcc, iamax.tcc", "librapid/cxxblas/level1extensions/asum1.tcc, imax1.tcc"]}
{"id": "C73", "title": "rotg constructs a Givens rotation and encodes it", "statement": "rotg(a, b, c, s) returns c, s with c^2+|s|^2 = 1 that rotate (a, b) to (r, 0) and overwrites a with r; for real arguments the value left in b allows c and s to be restored by the documented rule.", "quantifier": "all real and complex a, b in exact arithmetic", "why_tests_cant": "The code branches on magnitudes and signs; the boundary case |a| = |b| is easily missed.", "anchors": ["librapid/cxxblas/level1/rotg.tcc"]}
{"id": "C74", "title": "The general matrix-vector product of cxxblas reads its operands and writes exactly y", "statement": "gemv leaves beta*y + alpha*op(A)*x (op: identity, conjugate, transpose, conjugate transpose; optionally with x conjugated) in y, for either storage order, any leading dimension and increments of either sign; it reads only the elements of A, does not read y if beta = 0, and changes nothing else. If A is empty it does nothing.", "quantifier": "all sizes, orders, transpositions, increments, leading dimensions and values over any commutative ring with conjugation", "why_tests_cant": "Sizes, strides and values are unbounded; a wrong offset may hit memory that happens to hold the right value.", "anchors": ["librapid/cxxblas/level2/gemv.tcc: gemv_generic, gemv", "librapid/cxxblas/level2extensions/gemv.tcc: gemv"]}
{"id": "C75", "title": "The rank updates of cxxblas change exactly the matrix or the triangle they name", "statement": "ger/geru/gerc add alpha*x*y^T or alpha*x*y^H to the matrix; syr, syr2, her, her2 add their symmetric or hermitian update to the named triangle only, her and her2 leave the real part on the diagonal, and nothing else in memory changes, neither the other triangle nor the gap between the columns and the leading dimension.", "quantifier": "all sizes, orders, triangles, increments of either sign, leading dimensions and values", "why_tests_cant": "A write outside the triangle or into the gap shows only if these cells are looked at; sizes and strides are unbounded.", "anchors": ["librapid/cxxblas/level2/ger.tcc, syr.tcc, syr2.tcc, her.tcc, her2.tcc", "librapid/cxxblas/level2extensions/her.tcc, her2.tcc"]}
{"id": "C76", "title": "Products with symmetric and hermitian matrices depend only on the stored triangle", "statement": "symv and hemv leave beta*y + alpha*S*x in y, where S is the symmetric or hermitian matrix whose named triangle is stored; the other triangle is not read and need not exist, and hemv ignores the imaginary part of the diagonal.", "quantifier": "all sizes, orders, triangles, increments, leading dimensions and values", "why_tests_cant": "A read of the other triangle is invisible when the matrix is stored in full, as in a test; sizes and strides are unbounded.", "anchors": ["librapid/cxxblas/level2/symv.tcc, hemv.tcc", "librapid/cxxblas/level2extensions/hemv.tcc"]}
{"id": "C77", "title": "Triangular products and solves of cxxblas are correct in place and inverse to each other", "statement": "trmv replaces x by op(T)*x and trsv replaces b by the solution of op(T)*x = b, for all 32 combinations of order, triangle, transposition, conjugation and unit diagonal; the other triangle, and a unit diagonal, are not read; nothing else changes.", "quantifier": "all sizes, orders, triangles, transpositions, increments, leading dimensions and values (nonzero diagonal for the solve)", "why_tests_cant": "The update is in place and its direction must match the triangle; sizes are unbounded and a wrong direction is invisible for diagonal matrices.", "anchors": ["librapid/cxxblas/level2/trmv.tcc, trsv.tcc"]}
{"id": "C78", "title": "The banded matrix-vector product of cxxblas uses exactly the stored diagonals", "statement": "gbmv leaves beta*y + alpha*op(A)*x in y for the m x n matrix with kl diagonals below and ku above the main diagonal that is stored by diagonals (row-wise or column-wise); only positions inside the matrix and the band are read, and nothing but y changes; an empty matrix leaves everything.", "quantifier": "all sizes, bandwidths (also larger than the matrix), orders, transpositions, increments of either sign, leading dimensions and values", "why_tests_cant": "The corners of band storage that lie outside the matrix need not exist; a read there is invisible in a test that allocates them.", "anchors": ["librapid/cxxblas/level2/gbmv.tcc", "librapid/cxxblas/level2extensions/gbmv.tcc"]}
{"id": "C79", "title": "Products with banded and packed symmetric or hermitian matrices", "statement": "sbmv, hbmv, spmv, hpmv leave beta*y + alpha*S*x in y where S is the symmetric (hermitian) matrix with the stored half, which is read only inside the band and the matrix; the imaginary part of a hermitian diagonal does not matter.", "quantifier": "all sizes, bandwidths, orders, triangles, increments of either sign, leading dimensions and values over any commutative ring with conjugation", "why_tests_cant": "The address of an element is quadratic in its indices (packed) or depends on the band (banded); sizes are unbounded.", "anchors": ["librapid/cxxblas/level2/sbmv.tcc, hbmv.tcc, spmv.tcc, hpmv.tcc"]}
{"id": "C80", "title": "Rank updates of packed matrices change exactly the packed triangle", "statement": "spr, spr2, hpr, hpr2 add alpha*x*x^T, alpha*(x*y^T+y*x^T), alpha*x*x^H and alpha*x*y^H+conj(alpha)*y*x^H to the packed triangle; the hermitian ones leave the real part on the diagonal and do nothing for alpha = 0; nothing else in memory changes.", "quantifier": "all sizes, orders, triangles, increments of either sign and values", "why_tests_cant": "A running pointer walks through the packed rows; an error in its step shows only from the third row on and may leave the array.", "anchors": ["librapid/cxxblas/level2/spr.tcc, spr2.tcc, hpr.tcc, hpr2.tcc"]}
{"id": "C81", "title": "Products and solves with banded and packed triangular matrices are correct in place and inverse to each other", "statement": "tbmv, tpmv replace x by op(T)*x and tbsv, tpsv replace b by the solution of op(T)*x = b for all combinations of order, triangle, transposition, conjugation and unit diagonal; a unit diagonal is not read; nothing else changes; multiplying after solving restores the memory.", "quantifier": "all sizes, bandwidths, orders, triangles, transpositions, increments, leading dimensions and values (nonzero diagonal for the solves)", "why_tests_cant": "The update is in place, its direction must match the triangle, and the addresses are those of band and packed storage; all unbounded.", "anchors": ["librapid/cxxblas/level2/tbmv.tcc, tpmv.tcc, tbsv.tcc, tpsv.tcc"]}
{"id": "C82", "title": "The general matrix product of cxxblas computes beta*C + alpha*op(A)*op(B)", "statement": "gemm leaves beta*C + alpha*op(A)*op(B) in C for every combination of transposition and conjugation of the two operands; C is not read when beta is zero, A and B are not changed, nothing outside the m x n elements of C changes.", "quantifier": "all sizes, orders, the sixteen combinations of operations, leading dimensions, alpha, beta and values over any commutative ring with conjugation", "why_tests_cant": "Conjugation is invisible for real elements, for which alone it is tested; sizes and leading dimensions are unbounded.", "anchors": ["librapid/cxxblas/level3/gemm.tcc"]}
{"id": "C83", "title": "Products with symmetric and hermitian matrices from either side", "statement": "symm and hemm leave beta*C + alpha*S*B (left) or beta*C + alpha*B*S (right) in C, where S is the symmetric or hermitian matrix with the given triangle; the other triangle is not read, the imaginary part of a hermitian diagonal does not matter; C is not read when beta is zero; nothing else changes.", "quantifier": "all sizes, orders, sides, triangles, leading dimensions and values over any commutative ring with conjugation", "why_tests_cant": "The two sides use different routines and strides; a read of the other triangle is invisible when the matrix is stored in full.", "anchors": ["librapid/cxxblas/level3/symm.tcc, hemm.tcc"]}
{"id": "C84", "title": "Rank-k updates change exactly the given triangle", "statement": "syrk, syr2k, herk, her2k leave beta*C + alpha*op(A)*op(A)^T, beta*C + alpha*(op(A)*op(B)^T + op(B)*op(A)^T) and the hermitian counterparts (alpha*A*B^H + conj(alpha)*B*A^H) in the given triangle of C, real on the diagonal in the hermitian case; C is not read when beta is zero; nothing else changes.", "quantifier": "all sizes, orders, triangles, operations, leading dimensions and values", "why_tests_cant": "The result is symmetric, so a write to the wrong triangle or an exchanged operand is hard to see; sizes are unbounded.", "anchors": ["librapid/cxxblas/level3/syrk.tcc, syr2k.tcc, herk.tcc, her2k.tcc", "librapid/cxxblas/level1extensions/syscal.tcc, hescal.tcc"]}
{"id": "C85", "title": "Triangular matrix products and solves from either side are correct in place and inverse to each other", "statement": "trmm replaces B by alpha*op(T)*B or alpha*B*op(T) and trsm replaces it by the solution X of op(T)*X = alpha*B or X*op(T) = alpha*B; the other triangle and a unit diagonal are not read; nothing else changes; multiplying after solving restores alpha*B.", "quantifier": "all sizes, orders, sides, triangles, operations, diagonals, leading dimensions and values (nonzero diagonal for the solve)", "why_tests_cant": "The update is in place for each row or column in turn; 64 combinations of flags and unbounded sizes.", "anchors": ["librapid/cxxblas/level3/trmm.tcc, trsm.tcc"]}
{"id": "C86", "title": "Products of banded matrices with dense matrices from either side", "statement": "gbmm, sbmm, hbmm leave beta*C + alpha*op(A)*op(B) or beta*C + alpha*op(B)*op(A) in C for a general, symmetric or hermitian banded A, tbmm replaces B by alpha*op(T)*B or alpha*B*op(T) for a triangular banded T; only positions inside the matrix and the band are read; nothing else changes.", "quantifier": "all sizes, bandwidths, orders, sides, operations, triangles, leading dimensions and values", "why_tests_cant": "Sixteen hand-written loops with their own strides; the corners of band storage need not exist; sizes are unbounded.", "anchors": ["librapid/cxxblas/level3extensions/gbmm.tcc, sbmm.tcc, hbmm.tcc, tbmm.tcc"]}
{"id": "C87", "title": "Sums and squares in twice the precision are exact", "statement": "addX2 returns the rounded sum and a second number such that the two add up to the exact sum, addSmallX2 does so under its documented precondition, sqrX2 does so for the square, with and without a fused multiply-add, unless the square is so small that its error is not representable.", "quantifier": "all finite numbers of the type, including the range of subnormals for the sum", "why_tests_cant": "An error in the last bits of the correction term is far below the tolerance of any comparison; the input space is 2^128 pairs.", "anchors": ["librapid/include/librapid/math/complex.hpp: algorithm::addX2, addSmallX2, addX1, highHalf, sqrError, sqrX2 (29-217)"]}
{"id": "C88", "title": "x^2 + y^2 - 1 keeps its digits near the unit circle", "statement": "normMinusOne(x, y), from which log of a complex number is computed near the unit circle, differs from x^2 + y^2 - 1 by half a unit in the last place of the result and an amount far below the rounding error of x^2; logP1 splits 1 + x without error.", "quantifier": "all finite x, y with 1/2 <= |x| <= 2 and |y| <= |x|", "why_tests_cant": "The relative error is large only on a thin set around the unit circle that sampled tests miss.", "anchors": ["librapid/include/librapid/math/complex.hpp: algorithm::normMinusOne, logP1, logHypot (264-316)"]}
{"id": "C89", "title": "roundSigFig rounds to the given number of significant figures", "statement": "roundSigFig(x, figs) returns the nearest number that has figs significant decimal digits, ties away from zero, with the sign of x; zero stays zero; its loops end for every finite number; a nonpositive figs is rejected.", "quantifier": "all numbers, all figure counts", "why_tests_cant": "The scale of the number decides which entry of a table is used; tests pick a few magnitudes.", "anchors": ["librapid/include/librapid/math/round.hpp: roundSigFig (106-132)", "librapid/src/fastMath.cpp: pow10"]}
{"id": "C90", "title": "randomGaussian takes logarithm, quotient and root of positive numbers only and returns both values of a pair", "statement": "Every pair of values comes from two numbers in [-1, 1] whose squares add up to s with 0 < s < 1; the first call returns v1*sqrt(-2 log s / s), the next v2*sqrt(-2 log s / s) without drawing; the pair lies on the circle of radius sqrt(-2 log s).", "quantifier": "every generator of values in [0, 1), every state", "why_tests_cant": "The excluded values s = 0 and s >= 1 have tiny or unknown probability in a sample.", "anchors": ["librapid/include/librapid/math/random.hpp: randomGaussian (48-73)"]}
{"id": "C91", "title": "Copies, sums, scaling and exchange of full matrices work on exactly the elements of the result", "statement": "gecopy, geaxpy, geaxpby leave op(A), B + alpha*op(A) and beta*B + alpha*op(A) in the m x n elements of B for every order, transposition and conjugation; geraxpy adds op(A)/alpha, gerscal divides A by alpha, geswap exchanges two m x n matrices of any two orders; nothing between or beside the elements changes.", "quantifier": "all sizes, orders, operations, leading dimensions, alpha, beta and values over any ring with conjugation (any field for the divisions)", "why_tests_cant": "Fast paths treat a matrix without gaps as one vector; transposition, order and gaps give many combinations of unbounded sizes.", "anchors": ["librapid/cxxblas/level1extensions/gecopy.tcc, geaxpy.tcc, geaxpby.tcc, geraxpy.tcc, gerscal.tcc, geswap.tcc"]}
{"id": "C92", "title": "Copies, sums and scaling of triangular and trapezoidal matrices work on exactly the triangle", "statement": "trcopy, traxpy, traxpby leave op(A), B + alpha*op(A), beta*B + alpha*op(A) in the given triangle or trapezoid of B, trscal scales it, for both orders, triangles, transpositions, and with or without the diagonal; nothing outside of the triangle changes.", "quantifier": "all sizes m x n, orders, triangles, operations, leading dimensions and values", "why_tests_cant": "Errors show only for matrices that are not square, in the last row or column.", "anchors": ["librapid/cxxblas/level1extensions/trcopy.tcc, traxpy.tcc, traxpby.tcc, trscal.tcc"]}
{"id": "C93", "title": "Copies, sums and scaling of banded matrices work on exactly the band", "statement": "gbcopy, gbaxpy, gbaxpby leave op(A), B + alpha*op(A), beta*B + alpha*op(A) in the band of B for every order and operation, gbscal scales the band; positions of the storage outside of the matrix are neither read nor written.", "quantifier": "all sizes m x n, bandwidths, orders, operations, leading dimensions and values", "why_tests_cant": "A transposed band of a matrix that is not square reads beyond the ends of the diagonals; the cells exist in the array, so no crash shows it.", "anchors": ["librapid/cxxblas/level1extensions/gbcopy.tcc, gbaxpy.tcc, gbaxpby.tcc, gbscal.tcc"]}
{"id": "C94", "title": "Copies, sums and scaling of packed triangular matrices", "statement": "tpcopy, tpaxpy, tpaxpby leave op(A), B + alpha*op(A), beta*B + alpha*op(A) in the packed triangle of B, tpscal scales it, for both orders and triangles, with or without the diagonal; B is not read where beta is zero.", "quantifier": "all sizes, orders, triangles, operations and values", "why_tests_cant": "The packed address is quadratic; a wrong offset formula agrees with the right one up to order 3.", "anchors": ["librapid/cxxblas/level1extensions/tpcopy.tcc, tpaxpy.tcc, tpaxpby.tcc, tpscal.tcc"]}
{"id": "C95", "title": "Conjugation and transposition in place", "statement": "gecotr and gbcotr replace A by its conjugate, transpose or conjugate transpose in place; the transpose of a matrix (or band) that is not square is rejected by an assertion; applying the routine twice restores the matrix; nothing else in memory changes.", "quantifier": "all sizes, bandwidths, orders, operations, leading dimensions and values", "why_tests_cant": "In place every pair has to be exchanged exactly once; sizes are unbounded.", "anchors": ["librapid/cxxblas/level1extensions/gecotr.tcc, gbcotr.tcc"]}
{"id": "C96", "title": "Products of a compressed-row sparse matrix with vectors and matrices", "statement": "gecrsmv and gecrsmm leave beta*y + alpha*op(A)*x (beta*C + alpha*op(A)*B), where A is the matrix of which element (i, j) is the sum of the stored values of row i with column index j; empty rows, repeated column indices and any index base are allowed; y is not read for beta = 0; nothing else in memory changes and no cell outside of the arrays is read.", "quantifier": "all sizes, patterns, index bases, operations, alpha, beta and values over any ring with conjugation", "why_tests_cant": "The patterns are unbounded; empty rows, repeated entries and the index base multiply the cases.", "anchors": ["librapid/cxxblas/sparselevel2/gecrsmv.tcc", "librapid/cxxblas/sparselevel3/gecrsmm.tcc"]}
{"id": "C97", "title": "Products of sparse symmetric and hermitian matrices of which one triangle is stored", "statement": "sycrsmv, syccsmv, hecrsmv, heccsmv and the four *mm routines compute the product with the full symmetric (hermitian) matrix given by one triangle stored by rows or by columns with ascending indices: each entry off the diagonal acts twice, conjugated once in the hermitian case, the diagonal once with its real part.", "quantifier": "all sizes, patterns with ascending indices in the given triangle, index bases, alpha, beta and values", "why_tests_cant": "The routines treat only the first or last entry of a row as diagonal; a test with a full diagonal does not show what happens for rows without one.", "anchors": ["librapid/cxxblas/sparselevel2/sycrsmv.tcc, syccsmv.tcc, hecrsmv.tcc, heccsmv.tcc", "librapid/cxxblas/sparselevel3/sycrsmm.tcc, syccsmm.tcc, hecrsmm.tcc, heccsmm.tcc"]}
{"id": "C98", "title": "The fixed-size routines do what the general ones do", "statement": "The templates copy, ccopy, axpy, acxpy, axpby, acxpby, scal, rscal, gecopy, geaxpy, gescal, gerscal and gemv with sizes, increments and leading dimensions as template arguments have the effect of the routines of the same name with these as arguments, for every size, increment, leading dimension and operation.", "quantifier": "all sizes, positive increments, leading dimensions, operations and values", "why_tests_cant": "A test with one increment for all vectors does not tell the two increments apart.", "anchors": ["librapid/cxxblas/tinylevel1/copy.tcc, ccopy.tcc, axpy.tcc, acxpy.tcc, axpby.tcc, acxpby.tcc, scal.tcc, rscal.tcc, gecopy.tcc, geaxpy.tcc, gescal.tcc, gerscal.tcc", "librapid/cxxblas/tinylevel2/gemv.tcc"]}
{"id": "C99", "title": "A timer measures the time since the measurement began", "statement": "At any time Timer::elapsed<scale>() is the time from the last operation that begins a measurement (construction, start, reset, setTargetTime) to the last stop after it, or to the present, in units of scale nanoseconds, in whatever order the operations were used.", "quantifier": "all histories of operations, all clock readings and scales", "why_tests_cant": "Histories are unbounded and clock readings cannot be chosen in a test; the resolution is lost only at the size of present-day readings.", "anchors": ["librapid/include/librapid/utils/time.hpp:15-36, 85-174"]}
{"id": "C100", "title": "A timed loop runs until the target time is over and reports the average time of a pass", "statement": "while (timer.isRunning()) body; after setTargetTime ends with the first call at which the target time is over; afterwards average<scale>() is the elapsed time divided by the number of times the body ran; start and reset begin a new count.", "quantifier": "all clock readings, target times, numbers of passes and histories", "why_tests_cant": "The number of passes depends on the clock; the average of many passes hides an error of one in the count.", "anchors": ["librapid/include/librapid/utils/time.hpp:101-144", "docs/source/topics/arrayIterators.md:195-257"]}
{"id": "C101", "title": "sleep waits for the time asked for and not longer", "statement": "sleep<scale>(time) returns with the first reading of the clock at which time*scale nanoseconds are over; in double arithmetic the duration is off by at most 384 ns for clocks below 2^61 ns.", "quantifier": "all durations, scales and clock readings", "why_tests_cant": "The readings cannot be chosen in a test.", "anchors": ["librapid/include/librapid/utils/time.hpp:38-46"]}
{"id": "C102", "title": "A CUDA kernel is loaded from the file it names", "statement": "cuda::loadKernel(path, relative) returns, on every call of every sequence of calls, the texts of the helper headers followed by the text of the kernel file: path.cu in the directory of kernels if relative, path.cu itself otherwise; that the files can be read is enough; a file that is missing is reported.", "quantifier": "all sequences of calls and contents of files", "why_tests_cant": "The cache makes a result depend on all earlier calls.", "anchors": ["librapid/src/cudaKernelProcessor.cpp:6-38"]}
{"id": "C103", "title": "The OpenCL device with the greatest score is chosen", "statement": "findFastestDevice returns, for every list that is not empty, a device of the list with the greatest score (the first of them); the score grows with the product of compute units and frequency.", "quantifier": "all lists of devices and all values the queries can return", "why_tests_cant": "The devices of the machine are what a test can use.", "anchors": ["librapid/src/openclConfigure.cpp:73-86, 151-163"]}
{"id": "C104", "title": "A product of halves is a half nearest to the product", "statement": "x * y of two halves that are numbers is a half nearest to the exact product, an infinity exactly if its magnitude is 65520 or more; with a NaN or infinity times zero it is a NaN, and an infinity times a number other than zero is the infinity of the product of the signs.", "quantifier": "all pairs of halves (2^32) and all platforms", "why_tests_cant": "The rounding is wrong for rare pairs only; a shift by 32 or more gives other results on other platforms and in constant expressions.", "anchors": ["librapid/include/librapid/math/half.hpp:355-470, 589-592, 656-661"]}
{"id": "C105", "title": "A quotient of halves is a half nearest to the quotient", "statement": "x / y of two halves that are numbers, y not zero, is a half nearest to the exact quotient (an infinity exactly if its magnitude is 65520 or more), although it is computed in float and rounded twice; NaNs, infinities and zero divisors give what IEEE 754 has.", "quantifier": "all pairs of halves, all correctly rounded float divisions, all platforms", "why_tests_cant": "Rounding twice can go wrong for rare pairs only; that it never does is an argument about all pairs.", "anchors": ["librapid/include/librapid/math/half.hpp:547-573, 594-597, 663-668"]}
{"id": "C106", "title": "A half made from a number of another type is a half nearest to it", "statement": "half(d) and half = d for a double or an integer d is a half nearest to d.", "quantifier": "all doubles and integers in range, all correctly rounded conversions to float", "why_tests_cant": "The doubles that are rounded twice to the wrong side are a tiny part of all.", "anchors": ["librapid/include/librapid/math/half.hpp:547-560"]}
{"id": "C107", "title": "Matrix products in floating point are as accurate as their sums allow", "statement": "Every element of a product of float or double matrices (or of a matrix and a vector) differs from the exact sum of products by at most about K roundings of the sum of the magnitudes, whatever the shape, the transpositions, the contents of the result before, the number of threads, and the order, grouping or fusing of the additions the compiler chose; sums of integers below 2^p are exact.", "quantifier": "all shapes, contents, scale factors, evaluation orders and binary formats", "why_tests_cant": "A test compares a few products with a tolerance; the bound for every content, size and order of evaluation is an induction.", "anchors": ["librapid/include/librapid/array/linalg/arrayMultiply.hpp: ArrayMultiply::applyTo", "librapid/include/librapid/array/linalg/level3/gemm.hpp: gemm", "librapid/cxxblas/level3/gemm.tcc: gemm_generic", "librapid/cxxblas/level2/gemv.tcc: gemv_generic"]}
{"id": "C108", "title": "linspace and arange in floating point have the documented ends, counts and order", "statement": "linspace(a, b, n) of doubles starts with a, ascends or descends, ends with b if the end is included, and every element is within a few roundings of the exact one; arange(a, b, s) has floor((b - a) / s) elements, all before b, each within two roundings.", "quantifier": "all finite starts, stops, steps and counts, all binary formats", "why_tests_cant": "Whether the last element is exactly the end, or an element too many appears, depends on how rounding errors fall for the arguments.", "anchors": ["librapid/include/librapid/array/pseudoConstructors.hpp:135-150, 188-203"]}
{"id": "C109", "title": "logspace is the geometric progression between its ends", "statement": "logspace(a, b, n) for positive a and b has n elements with a common ratio, starting with a, and ending with b if the end is included; other ends give NaN, not an unrelated progression.", "quantifier": "all real ends and counts", "why_tests_cant": "The progression has as many elements as asked for, and ends of either sign.", "anchors": ["librapid/include/librapid/array/pseudoConstructors.hpp:205-224"]}
{"id": "C110", "title": "Complex arithmetic in floating point is accurate in magnitude", "statement": "Sums, differences, products and quotients of Complex<double> (and of complex and real numbers) differ from the exact result by at most a few roundings of its magnitude, and a zero divisor is the only one without a result.", "quantifier": "all finite components in whose formulas nothing overflows, all binary formats", "why_tests_cant": "The worst cases are cancellations and underflows that samples do not meet; the bound holds for all numbers or not at all.", "anchors": ["librapid/include/librapid/math/complex.hpp:581-619, 709-777, 806-1015"]}
{"id": "C111", "title": "Reductions and cross products of vectors in floating point are as accurate as their sums allow", "statement": "dot, sum and mag2 of Vector<double, n> and of expressions of vectors differ from the exact sums by at most n roundings of the sum of the magnitudes, whatever the packet width; mag2 is not negative; each component of a cross product is within two roundings of its two products.", "quantifier": "all dimensions, packet widths, expressions and finite contents, all binary formats", "why_tests_cant": "The order of the additions depends on the packet width of the machine; a test sees one of them.", "anchors": ["librapid/include/librapid/math/vectorImpl.hpp:239-249, 349-361, 1008-1050"]}
{"id": "C112", "title": "A bit set on the heap is a value", "statement": "A program that makes, copies, assigns, moves, combines, changes and destroys bit sets with heap storage (BitSet<n, false>) does what the same program does with bit sets that hold their bits themselves; no array is freed twice, read after it is freed or left behind, also when a constructor throws.", "quantifier": "all sizes, all programs of any length, builds with and without assertions", "why_tests_cant": "Double frees and aliases depend on the order in which objects end; tests of single operations do not meet them.", "anchors": ["librapid/include/librapid/datastructures/bitset.hpp:22-62, 285-328, 372-382"]}
{"id": "C113", "title": "copySign, signBit and ldexp agree with their definitions for every type", "statement": "copySign(mag, sign) is the magnitude of mag with the sign of sign, signBit tells whether a number is negative (or a negative zero or NaN), and ldexp(x, e) is the number of the type nearest to x 2^e, for all fundamental types, half-like types and multi-precision numbers and every 64-bit exponent.", "quantifier": "all values of all fundamental types, all multi-precision values, all exponents of 64 bits", "why_tests_cant": "Conversions of the sign or the exponent to a narrower type go wrong for values no test takes.", "anchors": ["librapid/include/librapid/utils/memUtils.hpp:63-124", "librapid/include/librapid/math/multiprec.hpp:473-531"]}
{"id": "C114", "title": "min, max, abs, mod, floor and ceil of scalars agree with their definitions", "statement": "min and max of any number of arguments of any fundamental types return the least and the greatest argument; abs, mod, floor and ceil return the absolute value, a remainder with the sign of the dividend, and the integer itself for integers.", "quantifier": "any number of arguments, all fundamental types and values", "why_tests_cant": "The conversions between the types of the arguments change values that tests with equal types do not see.", "anchors": ["librapid/include/librapid/math/coreMath.hpp:13-119"]}
{"id": "C115", "title": "Every mathematical constant is the double nearest to the number it names", "statement": "constants::pi, e, sqrt2, ln2, goldenRatio and the others are doubles, and no double is nearer to the real number of that name.", "quantifier": "each of the constants with a definition by elementary functions, roots, series or equations", "why_tests_cant": "A test can compare a literal with another literal only; the real number itself is defined by a limit.", "anchors": ["librapid/include/librapid/math/constants.hpp:7-158"]}
{"id": "C116", "title": "The real Fourier transform is the first half of the discrete Fourier transform", "statement": "fft::rfft of an array with one dimension of n numbers returns the n/2 + 1 first coefficients of its discrete Fourier transform, from which the array can be recovered; other arrays are refused.", "quantifier": "all sizes, all values, both back ends, builds with and without assertions", "why_tests_cant": "Tests compare few sizes with a table; sizes at the limits of the back ends and wrong shapes are not among them.", "anchors": ["librapid/include/librapid/array/fourierTransform.hpp:8-24, 44-62, 95-107"]}
{"id": "C117", "title": "Conversions between multi-precision types keep the number as far as the target can hold it", "statement": "toMpz, toMpf, toMpq and toMpfr return the number itself when the target type can hold it; otherwise the nearest number (to mpfr), the number within the relative error of the target (to mpf) or its integer part (to mpz).", "quantifier": "all values, all default precisions of mpf and mpfr", "why_tests_cant": "Conversions through text lose digits only for numbers of certain sizes and precisions.", "anchors": ["librapid/src/multiprecCasting.cpp:6-24", "librapid/src/multiprecToString.cpp:35-43"]}
{"id": "C118", "title": "fillRandom on the host is determined by the seed and respects its range", "statement": "After setSeed(s), fillRandom(a, lower, upper) on a host array gives element i the value of draw i of the generator, whatever the number of threads and the schedule, without a data race; every element lies in [lower, upper].", "quantifier": "all generators, seeds, sizes, bounds, numbers of threads, schedules and interleavings", "why_tests_cant": "A race shows only under some interleavings and on arrays above the threshold of the threads; a test sees plausible numbers.", "anchors": ["librapid/include/librapid/array/fill.hpp:11-54", "librapid/include/librapid/math/random.hpp:5-19"]}
{"id": "C119", "title": "Complex functions have the values of ISO C at the infinities", "statement": "sqrt, exp, log, pow, acos, asin, atan, acosh, asinh, atanh, cosh, sinh, tanh, cos, sin, tan, proj, abs and arg of a complex number with an infinite component and no NaN return the value Annex G of ISO C prescribes (the documentation says the algorithms handle NaN and infinity).", "quantifier": "all infinite arguments: every sign, every finite other component", "why_tests_cant": "There are infinitely many such arguments and many functions; a test uses a few, and NaN results do not fail comparisons written the wrong way round.", "anchors": ["librapid/include/librapid/math/complex.hpp:316-412", "librapid/include/librapid/math/complex.hpp:1126-1546", "librapid/include/librapid/math/complex.hpp:1675-1884", "librapid/include/librapid/math/complex.hpp:1990-2021"]}
{"id": "C120", "title": "Complex products and quotients with infinite numbers are infinite or zero", "statement": "An infinite number times a finite number other than zero, or divided by a finite number, has an infinite component; a finite number divided by an infinite one is zero; r * z equals z * r for a scalar r.", "quantifier": "all infinite and finite operands, all signs", "why_tests_cant": "The failures need particular pairs of infinite and zero components.", "anchors": ["librapid/include/librapid/math/complex.hpp:726-777", "librapid/include/librapid/math/complex.hpp:930-960"]}
{"id": "C121", "title": "Assignments whose source mentions the destination use the old contents", "statement": "If the right-hand side of an assignment mentions the array (or view) on the left, the result is what it would be if the right-hand side had been evaluated first: a = a[i], a[i] = f(a[j], a[i]), c = dot(c, transpose(c)), a[i] = transpose(a[i]), a = transpose(a). If the assignment is rejected with an exception, the array is as it was.", "quantifier": "all arrays, shapes, subscripts and expressions; all contents of fresh memory", "why_tests_cant": "The result depends on what the allocator returns, so a test can pass by chance; exceptions are usually only tested for being thrown, not for what they leave behind.", "anchors": ["librapid/include/librapid/array/arrayContainer.hpp:522-555", "librapid/include/librapid/array/generalArrayView.hpp:290-354", "librapid/include/librapid/array/linalg/transpose.hpp:613-728", "librapid/include/librapid/array/linalg/arrayMultiply.hpp:590-615"]}
{"id": "C122", "title": "Copies, subscripts and loops of unevaluated expressions denote the same elements", "statement": "For an expression f over arrays that has not been evaluated: a copy of f has the elements of f; f[i][j]... is the view of the elements of f at these subscripts and its get() the element itself; for (auto x : f) visits f[0], f[1], ... once each in order, and what x reads are the elements of f.", "quantifier": "all expressions, shapes, subscripts and array contents", "why_tests_cant": "Whether a copy is made is invisible in the program text (begin() makes one), and the operands it affects are only those that are temporaries; tests use arrays as operands.", "anchors": ["librapid/include/librapid/array/function.hpp:176", "librapid/include/librapid/array/function.hpp:278-327", "librapid/include/librapid/array/generalArrayView.hpp:191-196", "librapid/include/librapid/array/arrayIterator.hpp:1-120"]}
{"id": "C123", "title": "Operators and subscripts of the Python classes do what Python's syntax says", "statement": "In every state of every Python program over the array classes: x = l op r makes a new array with the results of op, element by element, and changes nothing else; x op= r gives x these results, and x[i] op= r the part x[i]; x[i] is the part of x with leading coordinate i, shared with x, x[i] = y replaces its elements only; unequal extents and indices out of range raise exceptions and change nothing; for v in x visits x[0], x[1], ... once each.", "quantifier": "all programs of these statements, all extents, contents and element types", "why_tests_cant": "The method bodies are generated from templates, so a mistake in a template is in every class and every operator; effects depend on the names and views that are around.", "anchors": ["librapid/bindings/generators/arrayGenerator.py:123-296", "librapid/bindings/generators/generalArrayViewGenerator.py:56-231", "librapid/include/librapid/array/generalArrayView.hpp:198-203", "librapid/include/librapid/array/generalArrayView.hpp:514-520"]}
{"id": "C124", "title": "No Python program over arrays and views touches memory that is gone", "statement": "Whatever sequence of assignments, operators, subscripts and deletions a Python program runs, no statement and no printing of a variable reads or writes the storage of an array that has been destroyed.", "quantifier": "all programs of these statements, of any length, with exceptions caught anywhere", "why_tests_cant": "Python has no undefined behaviour of its own, so users do not look for it; it takes a view, its array losing its last name, and a later use of the view.", "anchors": ["librapid/bindings/generators/arrayGenerator.py:123-141", "librapid/bindings/generators/arrayGenerator.py:225-296", "librapid/bindings/generators/function.py:76-110", "librapid/include/librapid/array/generalArrayView.hpp:198-203"]}
{"id": "C125", "title": "The Python function Array makes the array its arguments describe", "statement": "Array(shape, dtype, backend), positional or by keyword in any order, makes an array of this shape with elements of this type; Array(data=...) one with these contents; unknown names, both or neither of shape and data are rejected; len, subscripts and loops of a Shape give its extents.", "quantifier": "all lists of positional and keyword arguments", "why_tests_cant": "Arguments can be given in many ways and tests use one or two of them.", "anchors": ["librapid/__init__.py:48-134", "librapid/__init__.py:238-256", "librapid/bindings/generators/shapeGenerator.py:76-95"]}
{"id": "C126", "title": "The OpenCL device the user enters is the one that is used", "statement": "configureOpenCL asks for the number of a device until it gets one; the device used is the first number entered that is the number of a listed device, whatever is entered before it; if the input ends before, it reports an error.", "quantifier": "all numbers of devices, all texts on standard input", "why_tests_cant": "A test cannot type; the interesting inputs are mistakes, of which there is no end.", "anchors": ["librapid/src/openclConfigure.cpp:88-140", "librapid/src/openclConfigure.cpp:180-284"]}
{"id": "C127", "title": "A configured OpenCL can be used, and a failed configuration can be repeated", "statement": "After any sequence of calls of configureOpenCL, addOpenCLKernelSource, addOpenCLKernelFile and compileOpenCLKernels, successful or not: if OpenCL is marked as configured, a program with every kernel of the library is compiled; if not, configureOpenCL with a working device and compiler succeeds; with verbose = true the threads of the call have no data race.", "quantifier": "all sequences of calls, all lists of devices, all contents of the kernel files and all outcomes of the compiler", "why_tests_cant": "Needs OpenCL devices and failures of drivers and compilers that tests cannot provoke; the state left by a failure is seen by later calls only.", "anchors": ["librapid/src/openclConfigure.cpp:142-284", "librapid/src/global.cpp:1-60"]}
{"id": "C128", "title": "Messages say what went wrong, where, and how serious it is", "statement": "A failed assertion or an error throws the exception asked for, and its text is the message with the values in their places; a condition that holds prints and throws nothing; what is printed is a box of lines of one length that names the file, the function, the line, the message, and whether it is a status, a warning or an error.", "quantifier": "all messages, values, names of files and functions and line numbers", "why_tests_cant": "The widths and the kind depend on lengths of names; tests check that something is thrown, not its text.", "anchors": ["librapid/include/librapid/core/log.hpp:1-151", "librapid/include/librapid/core/preMain.hpp:16-28"]}
{"id": "C129", "title": "A Python Shape is a list of extents, and no program over Shapes touches memory outside them", "statement": "Every program that makes Shapes (Shape(), Shape([...]), Shape(s), Shape.zeros, Shape.ones, subshape), names them twice, assigns to their subscripts and catches the exceptions gives the values of subscripts, len, ndim, == and str that the same program gives over lists, or raises where it does; and never reads or writes outside the object. Shapes with the same text are equal.", "quantifier": "all programs, of any length; all arguments Python can pass", "why_tests_cant": "Tests cover a few calls on well-formed Shapes; writing past the 16 extents of an object corrupts memory without a visible effect.", "anchors": ["librapid/include/librapid/array/shape.hpp:16-150", "librapid/include/librapid/array/shape.hpp:281-420", "librapid/bindings/generators/shapeGenerator.py:7-332"]}
{"id": "C130", "title": "The name of a type is the name the compiler gives it", "statement": "typetraits::typeName<T>() is the text of the type's name and nothing else, with GCC, Clang and MSVC; so different types have different names, and the check of a serialised file against the type read cannot confuse two types.", "quantifier": "all type names the compiler can print, of any length and with any characters; all three compilers", "why_tests_cant": "A test runs one compiler on a few types; the text around the name is each compiler's own.", "anchors": ["librapid/include/librapid/core/traits.hpp:44-90", "librapid/include/librapid/utils/serialize.hpp:18-24"]}
{"id": "C131", "title": "No operation uses more threads than were asked for", "statement": "After setNumThreads(n) with n at least 1, assignments, random fills, transposes and Fourier transforms use between 1 and n threads and are defined, and getNumThreads gives n; before the first call the same holds for the number getNumThreads gives.", "quantifier": "all programs of calls, of any length; all n of type size_t; all numbers of cores; all builds", "why_tests_cant": "A test on one machine sees one number of cores and one BLAS library, and cannot try every n.", "anchors": ["librapid/src/global.cpp:8-74", "librapid/include/librapid/array/fill.hpp:11-51", "librapid/include/librapid/array/arrayContainer.hpp:487-504", "librapid/include/librapid/array/assignOps.hpp:175-190", "librapid/include/librapid/array/linalg/transpose.hpp:236-345", "librapid/include/librapid/array/fourierTransform.hpp:43-59"]}
{"id": "C132", "title": "The square roots of an integer array are the integer square roots", "statement": "sqrt of an array of an integer type holds, for every element that is not negative, the greatest integer whose square is at most the element, and evaluating it is defined.", "quantifier": "all integer types of up to 64 bits, all arrays of any length, all nonnegative elements", "why_tests_cant": "The first wrong element is above 4*10^15, among squares minus one; tests use small numbers.", "anchors": ["librapid/include/librapid/math/coreMath.hpp:121-134", "librapid/include/librapid/array/operations.hpp:115-127", "librapid/include/librapid/array/operations.hpp:175", "librapid/bindings/generators/arrayGenerator.py:402-441"]}
{"id": "C133", "title": "Expressions over OpenCL arrays follow the conversions of C++", "statement": "Assigning an element-wise expression over OpenCL arrays and scalars of arithmetic types to an OpenCL array stores at each index the value C++ gives to the expression at that index, with the usual arithmetic conversions, converted to the element type of the destination; no kernel leaves its buffers and other arrays stay as they were.", "quantifier": "all expressions of any depth that compile, all combinations of the ten arithmetic element types, all sizes, contents and destinations, whatever the arithmetic", "why_tests_cant": "Tests use one element type and literals of that type; a double literal next to a float array compiles and reads past the end of a buffer, which seldom crashes.", "anchors": ["librapid/include/librapid/array/assignOps.hpp:280-351", "librapid/include/librapid/opencl/openclKernelProcessor.hpp:6-45", "librapid/include/librapid/array/function.hpp:75-103", "librapid/include/librapid/array/operations.hpp:5-33", "librapid/include/librapid/opencl/kernels/arithmetic.cl:1-43"]}
{"id": "C134", "title": "Products and transposes of OpenCL matrices have the right elements for every element type", "statement": "The product of an OpenCL matrix and an OpenCL vector of integer types has the elements alpha * sum of A(i, j) * x(j) + beta * y(i) after the usual arithmetic conversions, and the transpose of an OpenCL matrix of any arithmetic type has the elements alpha * A(j, i); no kernel leaves its buffers.", "quantifier": "all combinations of element types, all sizes and contents, with and without assertions", "why_tests_cant": "Tests multiply float and double matrices, which clBLAST handles; the kernels for other types are chosen from the type of the product, and a missing kernel goes unnoticed without assertions.", "anchors": ["librapid/include/librapid/array/linalg/arrayMultiply.hpp:50", "librapid/include/librapid/array/linalg/arrayMultiply.hpp:399-437", "librapid/include/librapid/array/linalg/level2/gemv.hpp:50-107", "librapid/include/librapid/array/linalg/level2/gemv.cl:1-41", "librapid/include/librapid/array/linalg/transpose.hpp:369-390", "librapid/include/librapid/opencl/kernels/transpose.cl:4-31"]}
{"id": "C135", "title": "Products on a GPU through cuBLASLt and CLBlast are the products of the matrices", "statement": "Evaluating a product of two matrices, or of a matrix and a vector, of one floating-point or complex element type on CUDA or OpenCL stores alpha * op(A) * op(B) + beta * C, given that the vendor library does what its documentation says.", "quantifier": "all extents above 0, transposition flags, contents, scales and element types, with and without assertions", "why_tests_cant": "Needs GPUs; leading dimensions and extents in the wrong order give the right result for square matrices, and an error status goes unnoticed without assertions.", "anchors": ["librapid/include/librapid/array/linalg/arrayMultiply.hpp:404-474", "librapid/include/librapid/array/linalg/level3/gemm.hpp:50-83", "librapid/include/librapid/array/linalg/level3/gemm.hpp:117-272", "librapid/include/librapid/array/linalg/level2/gemv.hpp:50-76", "librapid/include/librapid/array/linalg/level2/gemv.hpp:199-212", "librapid/include/librapid/math/complex.hpp:2075"]}
{"id": "C136", "title": "Scaled sums of matrices on CUDA are computed for all shapes", "statement": "geam on CUDA arrays stores alpha * op(A) + beta * op(B), where each argument is a matrix or the transpose of one.", "quantifier": "all extents, transposition combinations, contents and scales", "why_tests_cant": "Needs a GPU; cuBLAS is column major and the library row major, which makes no difference for untransposed or square matrices.", "anchors": ["librapid/include/librapid/array/linalg/level3/geam.hpp:6-11", "librapid/include/librapid/array/linalg/level3/geam.hpp:150-300"]}
{"id": "C137", "title": "Expressions over CUDA arrays have the values and types they have on the host", "statement": "Assigning an element-wise expression over CUDA arrays of any arithmetic element types stores in every element what the same expression gives on the host, converted to the element type of the destination, whatever packet widths the library was built with.", "quantifier": "all expressions, element types, sizes above 0, contents, arithmetics, packet widths and destinations (also an operand)", "why_tests_cant": "Needs a GPU and one build per packet width; a kernel is only compiled when an assignment first asks for it, so each combination of types fails or works on its own.", "anchors": ["librapid/include/librapid/array/assignOps.hpp:354-545", "librapid/include/librapid/array/function.hpp:6-18", "librapid/include/librapid/array/function.hpp:75-103", "librapid/include/librapid/core/traits.hpp:402-760", "librapid/include/librapid/core/cudaConfig.hpp:76-86", "librapid/include/librapid/cuda/kernels/arithmetic.cu", "librapid/include/librapid/cuda/kernels/negate.cu", "librapid/include/librapid/cuda/kernels/vectorOps.cuh"]}
{"id": "C138", "title": "Transposing a CUDA matrix gives its transpose", "statement": "After b = transpose(a) * s with matrices on CUDA, row i, column j of b holds s times row j, column i of a, whatever the element type and the extents.", "quantifier": "all extents from 1 to 2^31 - 1, contents, scales, element types and builds", "why_tests_cant": "Needs a GPU and cuBLAS; square and wide matrices work, so tests with those say nothing about tall ones.", "anchors": ["librapid/include/librapid/array/linalg/transpose.hpp:394-482", "librapid/include/librapid/array/linalg/transpose.hpp:641-689"]}
{"id": "C139", "title": "Seeding decides what fillRandom leaves in CUDA arrays, and no number is used twice", "statement": "After setSeed(s), the arrays that a program gets from fillRandom of CUDA arrays of float and double are a function of s and the calls, not of what was drawn before; and successive arrays of one type are consecutive pieces of the sequence of the seed.", "quantifier": "all programs of fillRandom, random, randint, randomGaussian and setSeed calls, all histories, all generators", "why_tests_cant": "A test sees one order of calls; whether a fill is seeded depends on whether any number was drawn on the host since the seed was set, anywhere in the program.", "anchors": ["librapid/include/librapid/array/fill.hpp:118-168", "librapid/include/librapid/math/random.hpp:5-73", "librapid/src/global.cpp:12-13", "librapid/src/global.cpp:76-79"]}
{"id": "C140", "title": "Operators on vectors of two element types convert component by component", "statement": "For vectors (or vector expressions, or scalars) of different element types, a OP b has the components conv(a[i]) OP conv(b[i]) in the common type, whatever memory held before; assigning the result to a vector of another type, and a OP= b, convert each component.", "quantifier": "all element types, conversions, operations, dimensions, packet widths, contents of memory and padding", "why_tests_cant": "What a test sees depends on what was in uninitialised memory and on the packet width of the machine; with equal dimensions everything is right, so ordinary tests pass.", "anchors": ["librapid/include/librapid/math/vectorImpl.hpp:863-891", "librapid/include/librapid/math/vectorImpl.hpp:601-608", "librapid/include/librapid/math/vectorImpl.hpp:124-166", "librapid/include/librapid/math/vectorImpl.hpp:803-861"]}
{"id": "C141", "title": "Seeding decides what fillRandom leaves in OpenCL arrays and CUDA arrays of other types", "statement": "After setSeed(s), the arrays that a program gets from fillRandom of OpenCL arrays, and of CUDA arrays of integers, half or complex numbers, are a function of s and the calls, not of what was drawn before.", "quantifier": "all programs of fillRandom, random, randint and setSeed calls, all histories, all generators and kernels", "why_tests_cant": "A test sees one order of calls; which instantiation is seeded depends on everything that was called since the seed was set, anywhere in the program.", "anchors": ["librapid/include/librapid/array/fill.hpp:55-116", "librapid/include/librapid/math/random.hpp:5-24", "librapid/src/global.cpp:12-13", "librapid/src/global.cpp:76-79"]}
{"id": "C142", "title": "The sigmoid activation on a GPU fills the destination with the activations of the source", "statement": "Sigmoid::forward(dst, src) and backward(dst, src) on OpenCL and CUDA arrays leave in dst the activation of each element of src, whatever their sizes, and touch nothing else.", "quantifier": "both back ends, all sizes of both arrays, all orders of the work items", "why_tests_cant": "A test uses arrays of one shape, and writes past the end of a device buffer are rarely visible.", "anchors": ["librapid/include/librapid/ml/activations.hpp:132-188", "librapid/include/librapid/opencl/kernels/activations.cl:1-28", "librapid/include/librapid/cuda/kernels/activations.cu:1-23", "librapid/include/librapid/cuda/cudaKernelProcesor.hpp:22-48", "librapid/include/librapid/opencl/openclKernelProcessor.hpp:24-47"]}
{"id": "C143", "title": "prec(d) stores d decimal digits accurately", "statement": "After prec(d), an mpfr made from a decimal number keeps d of its digits: whole numbers of d digits are exact, the relative error is at most 10^-d, and different numbers of at most d significant digits stay different.", "quantifier": "all numbers of digits, all decimal numbers of all magnitudes above the underflow", "why_tests_cant": "Tests print a few values; the numbers that collide lie at magnitudes that depend on the number of digits and there is no bound on either.", "anchors": ["librapid/include/librapid/math/multiprec.hpp:402-415"]}
{"id": "C144", "title": "A multi-precision integer is formatted like a built-in integer", "statement": "fmt::format(spec, mpz(n)) gives the same text as fmt::format(spec, n) for every int64_t n and every format specification for integers.", "quantifier": "all specifications (fill, alignment, sign, #, 0, width, base) and all numbers", "why_tests_cant": "The tests format a few numbers with an empty specification; widths and numbers are unbounded.", "anchors": ["librapid/include/librapid/math/multiprec.hpp:664-684"]}
{"id": "C145", "title": "log(val, base) of multi-precision numbers is the logarithm to the base", "statement": "log(val, base) differs from the logarithm of val to the base by a few units of the precision, and the logarithm of a power of the base is its exponent.", "quantifier": "all precisions, values, bases and exponents", "why_tests_cant": "Errors of two rounded logarithms and a rounded quotient depend on all three; no sample shows a bound.", "anchors": ["librapid/src/multiprecExpLogPow.cpp:13-16"]}
{"id": "C146", "title": "A program survives an allocation that fails", "statement": "When a storage cannot get memory the program gets an exception and can go on: no storage is left unusable, no memory is released twice or lost, and elements with constructors are constructed before they are assigned and destroyed before their memory is released.", "quantifier": "all element types, programs of storage operations and patterns of failing allocations", "why_tests_cant": "Tests do not run out of memory, and the number of places where an allocation can fail grows with the program.", "anchors": ["librapid/include/librapid/array/storage.hpp:321-392", "librapid/include/librapid/array/storage.hpp:478-520", "librapid/include/librapid/array/storage.hpp:570-611"]}
{"id": "C147", "title": "Random numbers have the distributions they should", "statement": "If the draws of the generator are independent and uniform on [0, 1), random(a, b) is uniform between its limits, randint(lo, hi) takes every integer of its range with the same probability, and the values of randomGaussian are independent and standard normal.", "quantifier": "all limits, all sets of results", "why_tests_cant": "A test sees a sample; a distribution is a statement about all sets of results and all draws.", "anchors": ["librapid/include/librapid/math/random.hpp:5-24", "librapid/include/librapid/math/random.hpp:47-73"]}
{"id": "C148", "title": "A multi-precision number is formatted with the decimals asked for", "statement": "fmt::format with a precision of k decimals writes an mpf, mpq or mpfr with exactly k decimals, as a number nearest to it, in the width and with the sign asked for.", "quantifier": "all numbers, all precisions, all format specifications", "why_tests_cant": "A test formats a few numbers; rounding is a statement about every number and every precision.", "anchors": ["librapid/include/librapid/math/multiprec.hpp:682-773", "librapid/src/multiprecToString.cpp:9-43"]}
{"id": "C149", "title": "Scanning a multi-precision number gives the number written", "statement": "scn::scan of decimal digits into an mpz gives the number they denote; text that is no number is reported as an error; fractions of the same value scanned into mpq are equal.", "quantifier": "all texts, all numbers", "why_tests_cant": "A test scans a few texts; the property is about every text a user may enter.", "anchors": ["librapid/include/librapid/math/multiprec.hpp:776-889"]}
{"id": "C150", "title": "smoothStep and map in floating point keep their range, their order and their ends", "statement": "In floating point smoothStep is 0 up to the lower edge and 1 from the upper edge on, stays between 0 and 1, does not descend and is within a few roundings of the documented polynomial; map takes the ends of an interval to the ends of the other, stays between them and does not descend.", "quantifier": "all representable arguments, all binary formats", "why_tests_cant": "Rounding errors break order and range at isolated arguments, which no sample is sure to hit.", "anchors": ["librapid/include/librapid/math/utilityFunctions.hpp:96-121", "librapid/include/librapid/math/coreMath.hpp:65-80"]}
{"id": "C151", "title": "Random points are uniformly distributed in the ball and on the sphere", "statement": "If the draws of the generator are independent and uniform on [0, 1), a point of randomPointInSphere falls into a set with the probability that is the share of the set in the volume of the unit ball, and one of randomPointOnSphere with the share of the cone over the set.", "quantifier": "all measurable sets of points, all numbers of components", "why_tests_cant": "A distribution is a statement about all sets; tests sample a few points and check that they are not outside.", "anchors": ["librapid/include/librapid/math/vector.hpp:22-55", "librapid/include/librapid/math/random.hpp:5-72"]}
{"id": "C152", "title": "Lengths of vectors are accurate and unit vectors have length one in floating point", "statement": "For a Vector<double, n> of finite numbers other than zero mag is within n + 4 roundings of the length, norm has finite components, each within n + 6 roundings of the component of the unit vector, and length one up to n + 7 roundings.", "quantifier": "all dimensions up to 2^25 and packet widths, all vectors of finite doubles", "why_tests_cant": "The squares of small and large components leave the range of double; tests use components near one.", "anchors": ["librapid/include/librapid/math/vectorImpl.hpp:239-249", "librapid/include/librapid/math/vectorImpl.hpp:349-361", "librapid/include/librapid/math/vectorImpl.hpp:1008-1056"]}
{"id": "C153", "title": "Rounding to decimals in floating point keeps the order, the decimals and its own results", "statement": "For doubles round(x, d) keeps the order of its arguments in every mode, does not change the double nearest to a number with d decimals, and gives the same number when applied twice.", "quantifier": "all doubles and modes, all digit counts for the order and 1 to 22 for the rest, numbers of at most 2^47 units", "why_tests_cant": "The result is a product with a power of ten that has no exact double; which numbers come out different depends on all bits of the argument.", "anchors": ["librapid/include/librapid/math/round.hpp:21-38", "librapid/src/fastMath.cpp:4-31"]}
{"id": "C154", "title": "Triangular systems are solved in floating point as accurately as their coefficients are known", "statement": "The vector trsv leaves in x is the exact solution of a system whose coefficients differ from those of op(T) by at most n + 1 roundings each, the zeros not at all; each equation of the given system holds up to n + 1 roundings of the sum of the magnitudes of its terms. No other memory changes.", "quantifier": "all sizes, orders, triangles, transpositions, increments, leading dimensions, binary formats and finite values with a nonzero diagonal, however badly conditioned", "why_tests_cant": "Residuals on some systems do not bound those of others; the error of the solution itself has no bound that does not involve the condition number.", "anchors": ["librapid/cxxblas/level2/trsv.tcc:41-214", "librapid/cxxblas/level1/dot.tcc:40-76"]}
{"id": "C155", "title": "The BLAS norm of a vector neither overflows nor underflows", "statement": "nrm2 of n finite doubles (or of complex numbers, of which there are twice as many parts) is the Euclidean norm within 8n + 3 roundings (and half the least number), whatever the magnitudes: it is finite when the norm is at most 2^1023, also where the squares of the elements overflow, and it is not zero when an element is not zero, also where all squares underflow. No memory changes.", "quantifier": "all vectors of finite doubles of up to 2^40 elements, all increments", "why_tests_cant": "Tests take vectors of moderate size; the rounding error depends on the order of the magnitudes, and rescaling happens only for growing sequences.", "anchors": ["librapid/cxxblas/level1/nrm2.tcc:40-127", "librapid/cxxblas/auxiliary/pow.tcc:75-86"]}
{"id": "C156", "title": "The BLAS norm of a vector with an infinity is infinite", "statement": "nrm2 of a vector with an infinity and no NaN is infinity; with a NaN it is NaN.", "quantifier": "all vectors of doubles of up to 2^40 elements, all increments", "why_tests_cant": "Tests do not put several infinities into one vector.", "anchors": ["librapid/cxxblas/level1/nrm2.tcc:40-74", "librapid/cxxblas/level1/nrm2.tcc:123-127"]}
{"id": "C157", "title": "The plane rotation of BLAS is a rotation in floating point", "statement": "rotg(a, b, c, s) of finite doubles, not both zero, gives c, s with c^2 + s^2 = 1 up to 30 roundings, c b = s a up to 16 roundings of the length, and leaves the length of (a, b) with the sign of the larger number in a, up to 11 roundings.", "quantifier": "all pairs of finite doubles, not both zero", "why_tests_cant": "Tests take numbers of moderate size; the range in which the scaling works cannot be sampled.", "anchors": ["librapid/cxxblas/level1/rot.tcc:60-91"]}
{"id": "C158", "title": "Rounding to a step in floating point", "statement": "For positive doubles x and v, v / 2 a double: roundTo(x, v) is the double nearest to a nearest multiple of v, and x <= y gives roundTo(x, v) <= roundTo(y, v); roundUpTo(x, v) is not below x, and applying roundUpTo to the result gives the result.", "quantifier": "all positive doubles x, y and steps v", "why_tests_cant": "Whether the remainder and the two roundings hit the nearest double depends on the bits of x and v; tests use steps such as 5 or 0.5 where no rounding happens.", "anchors": ["librapid/include/librapid/math/round.hpp:66-74", "librapid/include/librapid/math/round.hpp:86-92"]}
{"id": "C159", "title": "Dual numbers in floating point", "statement": "Evaluating an expression in +, -, *, / on duals of doubles leaves in value what plain doubles give, to the last bit, and in derivative the derivative of the function the expression denotes, up to the roundings that can meet on the way, relative to the formula without cancellation; a quotient has such a derivative whenever the divisor is not zero.", "quantifier": "every expression of any size, every constant, every point and seed without underflow of products", "why_tests_cant": "The error depends on the shape of the expression and on the bits of every intermediate result; expressions are unbounded.", "anchors": ["librapid/include/librapid/autodiff/dual.hpp:116-206"]}
{"id": "C160", "title": "Triangular systems with many right-hand sides in floating point", "statement": "After trsm on doubles the matrix B holds X with op(T) X = alpha B (or X op(T) = alpha B), each equation satisfied up to a number of roundings of its terms that depends on the order of T only; T and everything outside B are unchanged.", "quantifier": "every order, side, triangle, transposition and diagonal, all sizes, all leading dimensions, all finite contents with no zero on the diagonal", "why_tests_cant": "Rounding errors depend on every bit of every element and the sizes are unbounded; tests compare a few small systems with a tolerance.", "anchors": ["librapid/cxxblas/level3/trsm.tcc:41-73", "librapid/cxxblas/level2/trsv.tcc:41-170"]}
{"id": "C161", "title": "Rounding to significant figures in floating point", "statement": "For doubles roundSigFig(x, figs) is the number with figs significant figures nearest to x up to a few roundings for each decimal place, does not change the double nearest to a number with figs significant figures, and is not zero unless x is.", "quantifier": "all doubles, all figure counts", "why_tests_cant": "The number is divided or multiplied by ten up to 323 times and multiplied by a computed power of ten; the roundings depend on every bit of the argument.", "anchors": ["librapid/include/librapid/math/round.hpp:106-132", "librapid/src/fastMath.cpp:4-31"]}
{"id": "C162", "title": "Linear interpolation in floating point", "statement": "For doubles lerp(t, a, b) moves from a towards b as t grows and never back, is within a few roundings of a + t(b - a) between 0 and 1, is a when a = b, and gives a number between the ends for every finite pair of ends.", "quantifier": "all doubles t, a, b", "why_tests_cant": "Order and accuracy are statements about all pairs of doubles; the branches of the code meet at places where rounding decides.", "anchors": ["librapid/include/librapid/math/utilityFunctions.hpp:43-70"]}
{"id": "C163", "title": "Clamping and interpolation with arguments of several types", "statement": "clamp, lerp and smoothStep accept arguments of different fundamental types; clamp gives the number of the interval nearest to its argument, lerp gives a + t(b - a), and smoothStep rises from 0 at the lower edge to 1 at the upper one, whatever the types.", "quantifier": "all fundamental types, all values", "why_tests_cant": "The result depends on conversions between pairs of types and on overflow, for every combination of types and values.", "anchors": ["librapid/include/librapid/math/utilityFunctions.hpp:20-30", "librapid/include/librapid/math/utilityFunctions.hpp:84-94", "librapid/include/librapid/math/utilityFunctions.hpp:112-123"]}
{"id": "C164", "title": "Products with triangular matrices in floating point", "statement": "trmv leaves op(T) x and trmm leaves alpha op(T) B or alpha B op(T), each element right up to a number of roundings of the sum of the magnitudes of its terms that depends on the order of T only; T and everything outside the result are unchanged.", "quantifier": "every order, side, triangle, transposition, conjugation and diagonal, all sizes, increments and leading dimensions, all finite contents", "why_tests_cant": "The order of the roundings depends on the storage options and the size; tests compare small integer matrices, for which every operation is exact.", "anchors": ["librapid/cxxblas/level2/trmv.tcc:41-196", "librapid/cxxblas/level3/trmm.tcc:41-73"]}
{"id": "C165", "title": "Rounding a multi-precision number to decimals uses its precision", "statement": "librapid::round(x, d, mode) of an mpfr gives a number with d decimals nearest to x, up to two roundings at the precision of x; ties in HALF_EVEN go to the even neighbour.", "quantifier": "all precisions, all finite numbers, all digit counts and modes", "why_tests_cant": "Which of two function templates a call selects does not show for numbers that fit a double, and the error depends on the precision and on every bit of the number.", "anchors": ["librapid/include/librapid/math/round.hpp:21-38", "librapid/include/librapid/math/round.hpp:46-64", "librapid/src/multiprecExpLogPow.cpp:11"]}
{"id": "C166", "title": "Products with sparse matrices in floating point", "statement": "gecrsmv, gecrsmm and the symmetric sycrsmv, sycrsmm leave beta y + alpha op(A) x with each element right up to one rounding for each stored entry of its row, and two more, of the sum of the magnitudes of its terms, plus what is lost below the normal range; everything else is unchanged.", "quantifier": "every sparsity pattern, order of entries and index base, all sizes, all finite values, every floating-point format", "why_tests_cant": "The error depends on every bit of every entry and on the order in which the entries are stored.", "anchors": ["librapid/cxxblas/sparselevel2/gecrsmv.tcc:63-146", "librapid/cxxblas/sparselevel2/sycrsmv.tcc:43-95", "librapid/cxxblas/sparselevel3/gecrsmm.tcc:45-55", "librapid/cxxblas/sparselevel3/sycrsmm.tcc"]}
{"id": "C167", "title": "Vector operations and rank updates of BLAS in floating point", "statement": "axpy, scal, rot and ger change each element as their formula says up to two, one, two and three roundings of the magnitudes of the terms, whatever the sizes; rot keeps the length of each pair as far as (c, s) has length one; dot and asum are right up to one rounding for each element; asum is never less than the magnitude of an element and zero only for zeros; everything else is unchanged.", "quantifier": "all sizes, increments of either sign, leading dimensions and orders, all finite values, every floating-point format", "why_tests_cant": "The error depends on every bit of every element and grows with sizes no test reaches; the order of the operations decides it.", "anchors": ["librapid/cxxblas/level1/axpy.tcc:41-55", "librapid/cxxblas/level1/scal.tcc:40-62", "librapid/cxxblas/level1/rot.tcc:41-58", "librapid/cxxblas/level1/dot.tcc:40-76", "librapid/cxxblas/level1/asum.tcc:41-57", "librapid/cxxblas/level2/ger.tcc:42-95"]}
{"id": "C168", "title": "General matrix products of BLAS in floating point", "statement": "Each element of beta y + alpha op(A) x left by gemv and of beta C + alpha op(A) op(B) left by gemm is right up to k + 2 roundings of the sum of the magnitudes of its terms, k being the inner size; matrices stored by rows and by columns give the same product bit for bit; column j of a product is bit for bit what gemv gives for column j; the old value may be uninitialised when beta = 0; everything else is unchanged.", "quantifier": "all sizes, orders, transpositions, increments of either sign and leading dimensions, all finite values, every floating-point format", "why_tests_cant": "The error depends on every bit of every element and grows with sizes no test reaches; the order of the operations decides it.", "anchors": ["librapid/cxxblas/level2/gemv.tcc:42-131", "librapid/cxxblas/level3/gemm.tcc:42-228"]}
{"id": "C169", "title": "Symmetric products and updates of BLAS in floating point", "statement": "Each element of beta y + alpha S x left by symv is right up to n + 4 roundings of the sum of the magnitudes of its terms; each element of the triangle left by syr and syr2 is right up to three and six roundings; syr leaves in its triangle bit for bit what ger with x on both sides leaves there; the other triangle is neither read nor changed.", "quantifier": "all sizes, orders, triangles, increments of either sign and leading dimensions, all finite values, every floating-point format", "why_tests_cant": "The error depends on every bit of every element and grows with sizes no test reaches; the order of the operations decides it.", "anchors": ["librapid/cxxblas/level2/symv.tcc:47-88", "librapid/cxxblas/level2/syr.tcc:42-70", "librapid/cxxblas/level2/syr2.tcc:42-74"]}
{"id": "C170", "title": "Rank-k updates and products with symmetric matrices of BLAS in floating point", "statement": "Each element of the triangle of beta C + alpha op(A) op(A)^T left by syrk is right up to k + 2 roundings of the sum of the magnitudes of its terms, and of beta C + alpha (op(A) op(B)^T + op(B) op(A)^T) left by syr2k up to 2k + 2; each element left by symm is right up to n + 4, n being the order of the symmetric matrix; the other triangle is neither read nor changed, and the old values may be uninitialised when beta = 0.", "quantifier": "all sizes, orders, sides, triangles, transpositions and leading dimensions, all finite values, every floating-point format", "why_tests_cant": "The error depends on every bit of every element and grows with sizes no test reaches; the order of the operations decides it.", "anchors": ["librapid/cxxblas/level3/syrk.tcc:41-78", "librapid/cxxblas/level3/syr2k.tcc:41-102", "librapid/cxxblas/level3/symm.tcc:42-86"]}
{"id": "C171", "title": "Packed updates and banded products of BLAS in floating point", "statement": "Each element of the packed triangle of A + alpha x x^T left by spr is right up to three roundings, and of A + alpha (x y^T + y x^T) left by spr2 up to six; each element of beta y + alpha op(A) x left by gbmv is right up to kl + ku + 3 roundings of the sum of the magnitudes of its terms, whatever the size of the matrix, kl and ku being the numbers of diagonals below and above the main diagonal; with beta = 0 the old y may be uninitialised, and nothing else changes.", "quantifier": "all sizes, orders, triangles, transpositions, band widths, increments and leading dimensions, all finite values, every floating-point format", "why_tests_cant": "The error depends on every bit of every element; that it does not grow with the size of the matrix is a statement about all sizes.", "anchors": ["librapid/cxxblas/level2/spr.tcc:41-71", "librapid/cxxblas/level2/spr2.tcc:41-75", "librapid/cxxblas/level2/gbmv.tcc:41-166"]}
{"id": "C172", "title": "Storing a matrix packed or banded does not change the bits", "statement": "spr and spr2 leave bit for bit what syr and syr2 leave for the same matrix stored in full in the same order, and gbmv leaves what gemv leaves for the same matrix with its zeros stored.", "quantifier": "all sizes, orders, triangles, transpositions, band widths, increments and leading dimensions, all finite values, every floating-point format", "why_tests_cant": "Whether two routines agree in every bit is a statement about all values; for most values a different order of the operations makes no difference.", "anchors": ["librapid/cxxblas/level2/spr.tcc:41-71", "librapid/cxxblas/level2/spr2.tcc:41-75", "librapid/cxxblas/level2/syr2.tcc:41-74", "librapid/cxxblas/level2/gbmv.tcc:41-166", "librapid/cxxblas/level2/gemv.tcc:42-131"]}
{"id": "C173", "title": "Products with packed and banded symmetric matrices of BLAS in floating point", "statement": "Each element of beta y + alpha S x left by spmv for a packed symmetric matrix S of order n is right up to n + 4 roundings of the sum of the magnitudes of its terms, and left by sbmv for a banded one with k diagonals on either side up to 2k + 5, whatever the size of the matrix; with beta = 0 the old y may be uninitialised, and nothing else changes.", "quantifier": "all sizes, orders, triangles, band widths, increments and leading dimensions, all finite values, every floating-point format in which 1 is a number", "why_tests_cant": "The error depends on every bit of every element; that it does not grow with the size of a banded matrix is a statement about all sizes.", "anchors": ["librapid/cxxblas/level2/spmv.tcc:41-81", "librapid/cxxblas/level2/sbmv.tcc:41-101"]}
{"id": "C174", "title": "Solves with packed and banded triangular matrices of BLAS in floating point", "statement": "The vector left by tpsv and tbsv satisfies each equation of op(T) x = b up to n + 1 roundings of the sum of the magnitudes of its terms, however badly conditioned the matrix is. Nothing else changes.", "quantifier": "all sizes, orders, triangles, transpositions, unit diagonals, band widths, increments and leading dimensions, all finite values, every floating-point format in which 1 is a number", "why_tests_cant": "The error depends on every bit of every element; tests compare with a tolerance on well conditioned matrices.", "anchors": ["librapid/cxxblas/level2/tpsv.tcc:40-216", "librapid/cxxblas/level2/tbsv.tcc:41-276"]}
{"id": "C175", "title": "Storing a triangular matrix packed or banded does not change the bits of a solve", "statement": "tpsv and tbsv leave bit for bit what trsv leaves for the same matrix stored in full in the same order.", "quantifier": "all sizes, orders, triangles, transpositions, unit diagonals, band widths, increments and leading dimensions, all finite values, every floating-point format", "why_tests_cant": "Whether two routines agree in every bit is a statement about all values; for most values a different order of the operations makes no difference.", "anchors": ["librapid/cxxblas/level2/tpsv.tcc:40-216", "librapid/cxxblas/level2/tbsv.tcc:41-276", "librapid/cxxblas/level2/trsv.tcc:41-213"]}
{"id": "C176", "title": "Products with packed and banded triangular matrices of BLAS in floating point", "statement": "Each element of op(T) x left by tpmv and tbmv is right up to n roundings of the sum of the magnitudes of its terms and what is lost below the normal range. Nothing else changes.", "quantifier": "all sizes, orders, triangles, transpositions, unit diagonals, band widths, increments and leading dimensions, all finite values, every floating-point format in which 1 is a number", "why_tests_cant": "The error depends on every bit of every element; tests compare with a tolerance at a few sizes.", "anchors": ["librapid/cxxblas/level2/tpmv.tcc:40-204", "librapid/cxxblas/level2/tbmv.tcc:41-254"]}
{"id": "C177", "title": "Packed or banded storage does not change the bits of a product with a triangular matrix", "statement": "tpmv leaves bit for bit what trmv leaves for the same triangular matrix stored in full, and so does tbmv, with zeros outside the band.", "quantifier": "all sizes, orders, triangles, transpositions, unit diagonals, band widths, increments and leading dimensions, all finite values, every floating-point format", "why_tests_cant": "Whether the bits agree depends on the order of the operations in three routines and on every bit of every element; tests compare with a tolerance.", "anchors": ["librapid/cxxblas/level2/tpmv.tcc:40-204", "librapid/cxxblas/level2/tbmv.tcc:41-254", "librapid/cxxblas/level2/trmv.tcc:41-196"]}
