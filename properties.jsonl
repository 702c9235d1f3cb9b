{"id": "C01", "title": "Row-major iteration is complete", "statement": "Looping an Index over an array's sizes terminates and visits every cell of the array exactly once, in row-major (lexicographic) order, never an index outside the array.", "quantifier": "all numbers of dimensions >= 1 and all positive sizes, any loop body", "why_tests_cant": "Unit tests walk a 2x3 and a 2x3x5 array; completeness and no-repetition must hold for every shape.", "anchors": ["src/Index.cpp: Index::Index, Index::operator++, Index::end", "src/TestIndex.cpp"]}
{"id": "C02", "title": "Column-major iteration is complete", "statement": "Looping a TransposedIndex visits every cell exactly once in column-major order (first dimension fastest) and terminates; converting an R array through it places the R element at every position at that same logical position.", "quantifier": "all shapes with positive sizes, all R arrays", "why_tests_cant": "Only two shapes are tested.", "anchors": ["src/Index.cpp: TransposedIndex::operator++", "src/rcpp_api.cpp: Rhelpers::convertArray"]}
{"id": "C03", "title": "Array addressing is a bijection", "statement": "For every shape, in-range multi-indices map to pairwise distinct storage slots that fill exactly [0, storageSize); reading after writing returns the value written and every other cell is unchanged; no in-range access is out of bounds.", "quantifier": "all shapes with positive sizes, all index pairs, all values", "why_tests_cant": "Finite samples cannot show injectivity for every shape.", "anchors": ["src/NDArray.h: NDArray::computeOffsets, NDArray::offset, NDArray::operator[]"]}
{"id": "C04", "title": "1-d reduction gives the marginal sums", "statement": "reduce(a, d) returns, for every position j of dimension d, the sum of all cells whose d-th index is j; the entries of the result add up to the total of the array; a dimension index out of range throws and nothing else does.", "quantifier": "all shapes, all integer contents, all dimension arguments", "why_tests_cant": "Tests check two arrays.", "anchors": ["src/NDArrayUtils.h: reduce(input, orient)", "src/TestReduce.cpp"]}
{"id": "C05", "title": "m-d reduction gives the marginal sums", "statement": "reduce(a, dims) returns the array of sums of a over the dimensions not in dims, in the order given by dims, and preserves the total.", "quantifier": "all shapes, contents, and lists of distinct in-range dimensions", "why_tests_cant": "No test calls the n-d to m-d reduction on its own.", "anchors": ["src/NDArrayUtils.h: reduce(input, preservedDims)", "src/Index.cpp: MappedIndex"]}
{"id": "C06", "title": "Slicing returns exactly the requested sub-array", "statement": "slice(a, fixed) returns the array over the unfixed dimensions, in order, whose cell at j is the cell of a obtained by inserting the fixed values; a dimension or index that is too large throws.", "quantifier": "all shapes, contents and lists of (dimension, index) pairs with distinct dimensions and non-negative indices", "why_tests_cant": "Tests cover two arrays; the statement is for every shape and every set of fixed dimensions.", "anchors": ["src/NDArrayUtils.h: slice", "src/Index.cpp: FixedIndex", "src/TestSlice.cpp"]}
{"id": "C07", "title": "flatten lists every individual exactly once", "statement": "flatten(pop) returns one column per dimension, each of length sum(pop); row r is an index tuple of the array; for every cell the number of rows equal to its index is its count, and rows come out in row-major order. The R version is the same with every index increased by one.", "quantifier": "all shapes and all non-negative integer populations", "why_tests_cant": "Tests look at one 3-d population.", "anchors": ["src/NDArrayUtils.h: listify", "src/module.cpp: flatten", "src/rcpp_api.cpp: flatten"]}
{"id": "C08", "title": "flatten never writes outside its table", "statement": "flatten completes without undefined behaviour for every integer array of positive sizes, including arrays holding negative counts.", "quantifier": "all integer arrays", "why_tests_cant": "The failure is an out-of-bounds heap write on inputs no test supplies (a negative count next to a positive one).", "anchors": ["src/NDArrayUtils.h: listify", "src/module.cpp: flatten"]}
{"id": "C09", "title": "The n-th Sobol point is a closed form of n", "statement": "The n-th point returned by a SobolSequence (counting from 1) has each coordinate equal to the XOR of the direction numbers of that coordinate selected by the bits of the Gray code of n, whatever the history of calls that led there.", "quantifier": "all dimensions 1..1111, all n up to 2^32-1", "why_tests_cant": "2^32 points in 1111 dimensions cannot be enumerated by a test.", "anchors": ["src/SobolImpl.cpp: sobol_gen, rightzero32, sobol_init"]}
{"id": "C10", "title": "Sobol values lie strictly between 0 and 1", "statement": "Every coordinate of every point a SobolSequence returns is strictly between 0 and 1 and is a multiple of 2^-32 represented exactly.", "quantifier": "all dimensions 1..1111, all points of the sequence", "why_tests_cant": "A zero anywhere in 2^32 x 1111 values would falsify it.", "anchors": ["src/SobolImpl.cpp: sobol_gen", "src/SobolData.h", "src/module.cpp: SobolGenerator::next", "src/Sobol.h: SCALE"]}
{"id": "C11", "title": "Sobol coordinates never repeat", "statement": "Within one coordinate, no value occurs twice in the whole sequence.", "quantifier": "all dimensions 1..1111, all pairs of positions", "why_tests_cant": "Pairs of 2^32 positions cannot be enumerated.", "anchors": ["src/SobolImpl.cpp: sobol_gen, sobol_init", "src/SobolData.h: sobol_a, sobol_minit"]}
{"id": "C12", "title": "Sobol coordinates are stratified", "statement": "In every coordinate, each aligned block of 2^k consecutive points (positions j*2^k .. (j+1)*2^k-1, position 0 being the origin) puts exactly one point in each dyadic interval of length 2^-k.", "quantifier": "all dimensions, all k <= 32, all blocks", "why_tests_cant": "Requires all blocks of all sizes in all 1111 coordinates.", "anchors": ["src/SobolImpl.cpp: sobol_gen, sobol_init", "src/SobolData.h"]}
{"id": "C13", "title": "The Sobol sequence ends cleanly", "statement": "A generator returns exactly 2^32-1 points; every later request fails with an exception and leaves the generator unchanged; it never wraps around. In Python exhaustion ends iteration (StopIteration).", "quantifier": "all generators, all numbers of requests", "why_tests_cant": "Reaching exhaustion takes 2^32 calls.", "anchors": ["src/SobolImpl.cpp: sobol_gen", "src/Sobol.cpp: Sobol::buf", "src/module.cpp: SobolGenerator::next"]}
{"id": "C14", "title": "Skipping advances by the documented amount", "statement": "Constructing a SobolSequence with skips=n is the same as constructing it without skips and discarding as many points as the largest power of two smaller than n.", "quantifier": "all n in uint32, all dimensions", "why_tests_cant": "All 2^32 skip values cannot be tried.", "anchors": ["src/SobolImpl.cpp: nlopt_sobol_skip", "src/Sobol.cpp: Sobol::Sobol, Sobol::skip"]}
{"id": "C15", "title": "Skipping always terminates", "statement": "Constructing a SobolSequence, or calling qis or qisi, with any skips argument returns.", "quantifier": "all skips values accepted by the API (uint32, and int64 truncated to uint32)", "why_tests_cant": "Tests use skips up to 12345; the loop diverges only above 2^31.", "anchors": ["src/SobolImpl.cpp: nlopt_sobol_skip"]}
{"id": "C16", "title": "Sobol coordinates do not depend on the requested dimension", "statement": "The first d' coordinates of the d-dimensional sequence are the d'-dimensional sequence.", "quantifier": "all 1 <= d' <= d <= 1111, all positions", "why_tests_cant": "All pairs of dimensions and positions.", "anchors": ["src/SobolImpl.cpp: sobol_init, sobol_gen"]}
{"id": "C17", "title": "Sobol dimension check", "statement": "SobolSequence(dim) succeeds when 1 <= dim <= 1111 and raises otherwise.", "quantifier": "all values of dim accepted by the Python signature (size_t)", "why_tests_cant": "Boundary and wrap-around values are not tested.", "anchors": ["src/Sobol.cpp: Sobol::Sobol", "src/module.cpp: SobolGenerator, py::init<size_t, uint32_t>"]}
{"id": "C18", "title": "Single-value Sobol stream", "statement": "Successive calls of operator() on a fresh Sobol object return the coordinates of point 1, then of point 2, and so on; after reset() the stream restarts from the beginning.", "quantifier": "all dimensions, all numbers of calls, reset at any moment", "why_tests_cant": "reset is only tested through an aliasing reference.", "anchors": ["src/Sobol.cpp: operator(), reset, skip", "src/rcpp_api.cpp: sobolSequence"]}
{"id": "C19", "title": "Input validation accepts exactly the consistent problems", "statement": "ipf, qis and qisi accept an index/marginal list if and only if: both lists have the same length >= 2; each index list has as many entries as its marginal has dimensions; a dimension has the same size everywhere; the dimensions used are exactly 0..D-1 with D >= 2; no marginal entry is negative; all totals round to the same integer; and for every dimension all 1-d partial sums agree. Otherwise an exception is raised, never undefined behaviour.", "quantifier": "all index lists (any integers, any lengths) and all marginals of positive sizes", "why_tests_cant": "Tests try a handful of bad inputs.", "anchors": ["src/Microsynthesis.h: Microsynthesis::Microsynthesis, createMappings"]}
{"id": "C20", "title": "Reported population is the common marginal total", "statement": "For integer marginals (totals below 2^52) the reported pop equals the total of every marginal; for floating marginals it is the total rounded to nearest.", "quantifier": "all accepted problems", "why_tests_cant": "All totals.", "anchors": ["src/Microsynthesis.h: createMappings, population"]}
{"id": "C21", "title": "QIS returns a population of the right size", "statement": "When qis returns, every cell of the result is non-negative and the cells sum to the reported population, whether or not conv is true.", "quantifier": "all accepted problems, all skips, any arithmetic rounding", "why_tests_cant": "All inputs and all Sobol trajectories.", "anchors": ["src/QIS.cpp: QIS::solve_m, sample, recursive_sample"]}
{"id": "C22", "title": "QIS conv means the marginals are met exactly", "statement": "When qis returns, conv is true if and only if for every input marginal the sums of the result over the remaining dimensions equal that marginal exactly.", "quantifier": "all accepted problems (including those with non-tree overlaps), all skips", "why_tests_cant": "Tests check a few convergent cases, never a non-convergent one.", "anchors": ["src/QIS.cpp: QIS::solve_m"]}
{"id": "C23", "title": "QIS succeeds on tree-structured problems", "statement": "If each marginal shares at most one dimension with the union of the marginals before it (in particular for disjoint marginals), qis always returns with conv true.", "quantifier": "all accepted problems with that overlap structure, positive sizes, population at most 2^32-2 minus skipped points", "why_tests_cant": "Tests try a few such structures.", "anchors": ["src/QIS.cpp: pick, sample, recursive_sample, QIS::solve_m", "src/Microsynthesis.h: createMappings"]}
{"id": "C24", "title": "QIS expectation", "statement": "stats['expectation'] is proportional to the product of the marginals, is zero exactly where a marginal is zero, and sums to the population (exact arithmetic, population > 0).", "quantifier": "all accepted problems", "why_tests_cant": "All marginals.", "anchors": ["src/QIS.cpp: QIS::QIS, computeStateValues"]}
{"id": "C25", "title": "QIS assigns every dimension of every individual", "statement": "The 'not all dims have been set' error is never raised on an accepted problem.", "quantifier": "all accepted problems, all Sobol points", "why_tests_cant": "Unreachability cannot be tested.", "anchors": ["src/QIS.cpp: QIS::solve_m", "src/Microsynthesis.h: Microsynthesis::Microsynthesis"]}
{"id": "C26", "title": "QIS without skips starts at the first Sobol point", "statement": "qis with skips=0 samples from the first point of the Sobol sequence, and skips=n discards the largest power of two smaller than n.", "quantifier": "all problems, all skips", "why_tests_cant": "Depends on every skips value.", "anchors": ["src/QIS.cpp: QIS::QIS", "src/SobolImpl.cpp: nlopt_sobol_skip"]}
{"id": "C27", "title": "QIS objects can be solved again", "statement": "Calling solve() a second time on a QIS object gives a population with the same marginals.", "quantifier": "all problems, all histories of solve calls", "why_tests_cant": "A history property; the bindings only call solve once.", "anchors": ["src/QIS.cpp: QIS::solve_m"]}
{"id": "C28", "title": "QIS/QISI statistics are well defined", "statement": "The reported chiSq is the sum of (result-expectation)^2/expectation; it is a number (not NaN) for every returned population.", "quantifier": "all returned populations including those with zero marginal entries", "why_tests_cant": "Zero marginal entries are not tested.", "anchors": ["src/StatFuncs.h: chiSq", "src/StatFuncs.cpp: pValue, dof"]}
{"id": "C29", "title": "IPF conv means the marginals are met", "statement": "When ipf returns conv=true, the sums of the result match every marginal to within 1e-8 and maxError is the largest absolute deviation.", "quantifier": "all accepted problems and finite seeds", "why_tests_cant": "All seeds and marginals.", "anchors": ["src/IPF.h: solve, computeErrors", "src/Microsynthesis.h: rDiff, rScale"]}
{"id": "C30", "title": "IPF iteration accounting", "statement": "ipf reports between 1 and 1000 iterations; conv=false only after 1000 iterations, and fewer than 1000 iterations imply conv=true.", "quantifier": "all accepted problems and seeds, any rounding", "why_tests_cant": "All seeds.", "anchors": ["src/IPF.h: solve"]}
{"id": "C31", "title": "IPF keeps zeros and signs", "statement": "Cells that are zero in the seed are zero in the result, and a non-negative seed gives a non-negative result.", "quantifier": "all problems, all finite seeds, exact arithmetic and IEEE rounding", "why_tests_cant": "All seeds.", "anchors": ["src/Microsynthesis.h: rScale", "src/IPF.h"]}
{"id": "C32", "title": "IPF preserves the association structure of the seed", "statement": "The result equals the seed times a product of one factor per marginal, each factor depending only on the marginal's own dimensions (so all odds ratios of the seed are preserved).", "quantifier": "all problems and seeds, exact arithmetic", "why_tests_cant": "A statement about all cells and all iteration counts.", "anchors": ["src/Microsynthesis.h: rScale"]}
{"id": "C33", "title": "IPF leaves a solution alone", "statement": "If a non-negative seed already satisfies all marginals, ipf returns the seed unchanged with conv=true after one iteration and maxError 0.", "quantifier": "all problems with non-negative seeds meeting the marginals, exact arithmetic", "why_tests_cant": "All such seeds.", "anchors": ["src/IPF.h: solve", "src/Microsynthesis.h: rScale"]}
{"id": "C34", "title": "IPF of a unit seed is the independence table", "statement": "For a constant positive seed and marginals on disjoint dimensions ipf converges in one iteration to the product of the marginals divided by pop^(number of marginals - 1).", "quantifier": "all disjoint problems with positive totals, all constant seeds > 0, exact arithmetic", "why_tests_cant": "All marginals.", "anchors": ["src/IPF.h: solve", "src/Microsynthesis.h: rScale"]}
{"id": "C35", "title": "IPF does not depend on the scale of the seed", "statement": "Multiplying the seed by any positive constant changes neither the result nor any statistic. For powers of two this holds bit for bit in binary64.", "quantifier": "all problems, seeds and constants > 0 in exact arithmetic; in binary64 all constants that are powers of two, for seeds and marginals away from overflow and underflow", "why_tests_cant": "All constants.", "anchors": ["src/Microsynthesis.h: rScale"]}
{"id": "C36", "title": "Seed shape is checked", "statement": "ipf and qisi raise an exception when the seed's number of dimensions or any of its sizes differs from those implied by the marginals, and never read outside the seed.", "quantifier": "all seeds and accepted problems", "why_tests_cant": "All shapes.", "anchors": ["src/IPF.h: solve", "src/QISI.cpp: QISI::solve"]}
{"id": "C37", "title": "IPF always returns", "statement": "ipf terminates on every accepted problem.", "quantifier": "all accepted problems, including marginals that cover all dimensions and index lists with repeated dimensions", "why_tests_cant": "Non-termination cannot be observed by a test of finite length; such inputs are not tested.", "anchors": ["src/Microsynthesis.h: rScale, invert", "src/Index.cpp: MappedIndex::operator++"]}
{"id": "C38", "title": "IPF never claims convergence on invalid numbers", "statement": "conv=true implies the result contains no NaN.", "quantifier": "all seeds including NaN entries", "why_tests_cant": "No test uses NaN.", "anchors": ["src/IPF.h: computeErrors"]}
{"id": "C39", "title": "IPF solves are independent", "statement": "Solving with the same IPF object several times gives the same answers as fresh objects: earlier seeds have no influence.", "quantifier": "all histories of solve calls", "why_tests_cant": "A history property.", "anchors": ["src/IPF.h: solve"]}
{"id": "C40", "title": "IPF cannot converge when the seed blocks a marginal", "statement": "If every seed cell contributing to a marginal entry of at least 1e-8 is zero, ipf returns conv=false in release builds and raises in debug builds.", "quantifier": "all problems with such a seed, any rounding", "why_tests_cant": "All zero patterns.", "anchors": ["src/Microsynthesis.h: rScale", "src/IPF.h"]}
{"id": "C41", "title": "QISI returns a population of the right size and honest conv", "statement": "When qisi returns, the result is non-negative, sums to the population, and conv is true if and only if every marginal is met exactly.", "quantifier": "all accepted problems, seeds, skips, any rounding", "why_tests_cant": "All inputs.", "anchors": ["src/QISI.cpp: QISI::solve"]}
{"id": "C42", "title": "QISI honours skips", "statement": "The skips argument of qisi selects a different starting point of the Sobol sequence, as it does for qis.", "quantifier": "all problems and skips", "why_tests_cant": "Tests never pass skips to qisi.", "anchors": ["src/QISI.cpp: QISI::QISI, QISI::solve"]}
{"id": "C43", "title": "QISI respects structural zeros", "statement": "qisi never puts an individual in a cell whose seed is zero.", "quantifier": "all problems, all non-negative seeds, exact arithmetic and IEEE rounding", "why_tests_cant": "All seeds and trajectories.", "anchors": ["src/QISI.cpp: getIndex, pick, QISI::solve"]}
{"id": "C44", "title": "QISI converges when its IPF steps do", "statement": "If every IPF fit QISI performs meets the remaining marginals exactly, qisi returns with conv=true and raises no exception.", "quantifier": "all problems and seeds, exact arithmetic", "why_tests_cant": "All trajectories.", "anchors": ["src/QISI.cpp: QISI::solve, recomputeIPF"]}
{"id": "C45", "title": "1-d integerisation sums to the population", "statement": "integerise(frac, pop) and prob2IntFreq return non-negative integers summing exactly to pop.", "quantifier": "all probability vectors of length >= 1 and all pop >= 0", "why_tests_cant": "All vectors.", "anchors": ["src/Integerise.cpp: integeriseMarginalDistribution", "src/module.cpp: integerise1d", "src/rcpp_api.cpp: prob2IntFreq"]}
{"id": "C46", "title": "1-d integerisation rounds each entry up or down", "statement": "Every returned frequency differs from the exact value p_i*pop by less than one, and entries that are exact integers are returned unchanged when all are.", "quantifier": "all probability vectors, all pop >= 0, in exact arithmetic; in IEEE and other rounded arithmetic all vectors of normal doubles with (pop + 2) * (n + 3)^2 <= 2^52", "why_tests_cant": "All vectors.", "anchors": ["src/Integerise.cpp: integeriseMarginalDistribution"]}
{"id": "C47", "title": "1-d integerisation is optimal", "statement": "No integer vector summing to pop has a smaller mean square deviation from p*pop, and the returned rmse is that of the returned vector.", "quantifier": "all probability vectors, all pop, all competing integer vectors, exact arithmetic", "why_tests_cant": "The competing vectors are infinitely many.", "anchors": ["src/Integerise.cpp: integeriseMarginalDistribution", "README.md"]}
{"id": "C48", "title": "1-d integerisation keeps the order", "statement": "A state with a larger probability never gets a smaller frequency than one with a smaller probability.", "quantifier": "all probability vectors, all pop, exact arithmetic", "why_tests_cant": "All pairs of states.", "anchors": ["src/Integerise.cpp: integeriseMarginalDistribution"]}
{"id": "C49", "title": "1-d integerisation rejects or handles every input", "statement": "integerise(frac, pop) either returns or raises for every vector of numbers, including empty vectors and vectors summing to zero.", "quantifier": "all vectors and all pop", "why_tests_cant": "Degenerate inputs are not tested; the failure is undefined behaviour.", "anchors": ["src/Integerise.cpp: integeriseMarginalDistribution", "src/module.cpp: integerise1d"]}
{"id": "C50", "title": "One-argument integerise of a vector keeps its total", "statement": "integerise(pop) of a 1-d array whose sum is within 1e-4 of an integer N returns integers summing to N.", "quantifier": "all 1-d arrays with near-integral total", "why_tests_cant": "Depends on rounding of the sum; tests use a sum that is exact.", "anchors": ["src/Integerise.cpp: Integeriser::Integeriser"]}
{"id": "C51", "title": "Multi-d integerise preserves integral marginals", "statement": "integerise(a) raises unless the total and all 1-d sums are within 1e-4 of integers; when it returns with conv=true, the result's 1-d sums equal those integers exactly; the result is always non-negative and sums to the rounded total.", "quantifier": "all arrays of dimension >= 2", "why_tests_cant": "All arrays.", "anchors": ["src/Integerise.cpp: Integeriser::Integeriser, checked_round"]}
{"id": "C52", "title": "Degrees of freedom and degenerate p-values", "statement": "The p-value of a table with a dimension of size one is 1, the p-value of chiSq 0 is 1, and a failed p-value evaluation is not reported as a valid one.", "quantifier": "all tables", "why_tests_cant": "All tables.", "anchors": ["src/StatFuncs.cpp: dof, pValue, gamain"]}
{"id": "C53", "title": "Degeneracy formula", "statement": "degeneracy is S!/prod(a_k!) as documented, S the number of individuals.", "quantifier": "all populations", "why_tests_cant": "Documentation says 'not convinced that this is correct'.", "anchors": ["src/StatFuncs.cpp: degeneracy", "src/StatFuncs.h"]}
{"id": "C54", "title": "Results depend only on the logical contents of numpy inputs", "statement": "ipf, qis, qisi, integerise and flatten give the same result for two numpy arrays with equal shape and equal elements, whatever their memory layout.", "quantifier": "all arrays, all strides (C order, Fortran order, sliced views)", "why_tests_cant": "Tests only pass C-contiguous arrays.", "anchors": ["src/module.cpp: asNDArray, toNDArray, toVector, cbegin, cend"]}
{"id": "C55", "title": "Python ipf only reads live memory", "statement": "ipf never reads a marginal's buffer after it has been released.", "quantifier": "all marginal lists: float64 arrays, integer arrays, nested Python lists", "why_tests_cant": "Use-after-free depends on dtype conversion and on the allocator.", "anchors": ["src/module.cpp: ipf, asNDArray"]}
{"id": "C56", "title": "The R interface computes the same tables as the core", "statement": "R's column-major arrays and 1-based dimensions are translated so that result marginals in R's own indexing are the marginals supplied.", "quantifier": "all dimensions, shapes and marginal lists", "why_tests_cant": "All permutations of dimensions.", "anchors": ["src/rcpp_api.cpp: ipf, qis, qisi, convertArray, getDimension, checkSeed"]}
{"id": "C57", "title": "Sampling without replacement exhausts the frequencies", "statement": "Drawing as many samples as the total frequency returns every state exactly as often as its frequency, whatever the random numbers; the next draw raises.", "quantifier": "all frequency vectors, all sequences of 32-bit random numbers", "why_tests_cant": "All sequences.", "anchors": ["src/DDWR.h: discrete_distribution_without_replacement"]}
{"id": "C58", "title": "Sampling with replacement and constrained sampling are safe", "statement": "discrete_distribution_with_replacement returns only states with positive frequency; constrainedSample never returns a forbidden state.", "quantifier": "all frequency vectors, all random numbers, all limits", "why_tests_cant": "All inputs.", "anchors": ["src/DDWR.h: discrete_distribution_with_replacement, constrainedSample"]}
{"id": "C59", "title": "pick selects a state of positive weight", "statement": "The discrete sampler used by qis and qisi returns an in-range state of strictly positive weight for every Sobol value and every non-negative weight vector with positive total, and raises when the total is zero.", "quantifier": "all weight vectors, all 2^32 variates, exact and IEEE binary64 arithmetic", "why_tests_cant": "Rounding at the upper end is the issue; it cannot be sampled exhaustively.", "anchors": ["src/QIS.cpp: pick", "src/QISI.cpp: pick"]}
{"id": "C60", "title": "Array memory is freed exactly once", "statement": "For every sequence of NDArray operations (construct, wrap, move, resize, release, destroy) no block is freed twice, no released or borrowed block is freed by the array, and element access stays inside the allocation.", "quantifier": "all operation sequences", "why_tests_cant": "A history property over arbitrary sequences.", "anchors": ["src/NDArray.h: NDArray"]}
{"id": "C61", "title": "Error messages substitute their arguments in order", "statement": "Formatting \"...%%...\" % a % b replaces the first placeholder by a and the second by b and leaves the rest of the text unchanged.", "quantifier": "all templates and argument texts without placeholders", "why_tests_cant": "All strings.", "anchors": ["src/Log.h: operator%, to_string_impl"]}
{"id": "C62", "title": "The R interface rejects malformed input without undefined behaviour", "statement": "Whatever lists of index vectors and marginals and whatever seed are passed to R's qis, qisi and ipf, the call returns a list for a consistent problem or raises an error; it never reads or writes outside the vectors passed.", "quantifier": "all lists of integer vectors, arrays and seeds, consistent or not", "why_tests_cant": "The ways to get the arguments wrong are unbounded, and an out-of-bounds read usually goes unnoticed.", "anchors": ["src/rcpp_api.cpp: getDimension, checkSeed, qis, qisi, ipf"]}
{"id": "C63", "title": "Sobol coordinates are jointly stratified", "statement": "Taken together, the coordinates of SobolSequence(dim) are equidistributed: for any choice of coordinates with polynomial degrees d_i, and any subdivision of the range of coordinate i into 2^e_i equal intervals, every aligned block of 2^k consecutive positions has exactly 2^(k - sum e_i) points in each of the boxes, whenever sum e_i + sum (d_i - 1) <= k. For the first two coordinates this means exactly one point in each rectangle of area 2^-k.", "quantifier": "all dimensions 1..1111, all sets of coordinates, all subdivisions and boxes, all aligned blocks of up to 2^32 positions", "why_tests_cant": "The number of coordinate sets, boxes and blocks is astronomically large; the property depends on the linear independence of bit matrices for every combination, i.e. on the polynomials in the table being irreducible and pairwise different.", "anchors": ["src/SobolImpl.cpp: sobol_init, sobol_gen", "src/SobolData.h: sobol_a, sobol_minit", "src/Sobol.cpp: Sobol::buf", "src/module.cpp: SobolGenerator"]}
{"id": "C64", "title": "Sobol coordinates are distinct", "statement": "No two coordinates of a SobolSequence are copies of each other: for any two different coordinates some point among the first 2^26 has one below and the other at or above one half.", "quantifier": "all dimensions up to 1111, all pairs of coordinates", "why_tests_cant": "616605 pairs of coordinates, with the first differing point possibly millions of positions into the sequence.", "anchors": ["src/SobolImpl.cpp: sobol_init", "src/SobolData.h: sobol_a, sobol_minit"]}
{"id": "C65", "title": "p-values are chi-squared tail probabilities", "statement": "A p-value computed from a chi-squared statistic with k degrees of freedom and not flagged as failed is the probability that a chi-squared variable with k degrees of freedom exceeds the statistic, to the accuracy the code aims at (1e-8 stopping criterion).", "quantifier": "all statistics, all degrees of freedom", "why_tests_cant": "A convergence claim about a series and a continued fraction for every pair of arguments; tests check a handful of table values.", "anchors": ["src/StatFuncs.cpp: pValue, gamain"]}
{"id": "C66", "title": "Malformed Python calls are refused", "statement": "From Python, ipf, qis and qisi raise an error when the lists of indices and marginals differ in length or when an index is not one-dimensional, wherever in the list it is; integerise with a population raises an error for a negative population or probabilities that are not a vector.", "quantifier": "all argument lists", "why_tests_cant": "All list lengths, positions and shapes.", "anchors": ["src/module.cpp: ipf, qis, qisi, integerise1d, toVector"]}
{"id": "C67", "title": "R's sobolSequence returns the Sobol points", "statement": "R's sobolSequence(dim, n, skip) returns an n x dim matrix whose rows are consecutive points of the Sobol sequence as fractions strictly between 0 and 1, starting after the documented number of skipped points (the largest power of two below skip); a negative n or an unsupported dim is an error; the call returns for every skip.", "quantifier": "all dim, n and skip R can pass", "why_tests_cant": "All dimensions, lengths and skips.", "anchors": ["src/rcpp_api.cpp: sobolSequence"]}
{"id": "C68", "title": "R's flatten lists the population", "statement": "R's flatten(array, names) returns a data frame with one column per dimension under its name, holding each (1-based) index tuple as many times as its count; malformed calls are errors, not memory errors.", "quantifier": "all integer arrays and name lists", "why_tests_cant": "All shapes, counts and names.", "anchors": ["src/rcpp_api.cpp: flatten", "src/NDArrayUtils.h: listify"]}
{"id": "C69", "title": "IPF returns the table closest to the seed", "statement": "Of all non-negative tables that have the same marginal sums as ipf's result and are zero wherever the seed is, ipf's result is the one with the smallest relative entropy with respect to the seed, and the only one.", "quantifier": "all problems on which ipf returns, all non-negative seeds, all competing tables, exact arithmetic", "why_tests_cant": "Optimality over a continuum of competing tables, for every seed.", "anchors": ["src/IPF.h: IPF, rScale", "src/module.cpp: ipf", "src/rcpp_api.cpp: ipf"]}
{"id": "C70", "title": "IPF converges when the problem has a solution", "statement": "If some non-negative table meets the marginals and is zero wherever the seed is, then ipf, called again on its own result until it reports conv, reports it after finitely many calls; the tables converge, and the limit is the table closest to the seed among those that meet the marginals. A single call gives up only if every such table is far from the seed.", "quantifier": "all consistent marginals on which ipf returns, all non-negative seeds (zeros included) for which a solution exists, exact arithmetic", "why_tests_cant": "Convergence of an iteration, for every input.", "anchors": ["src/IPF.h: IPF, solve, rScale, computeErrors"]}
{"id": "C71", "title": "The order of the marginals does not matter to IPF", "statement": "If the same marginals are passed to ipf in a different order (and it is called again on its own result until it converges), the tables converge to the same limit.", "quantifier": "all consistent problems that have a solution vanishing with the seed, all permutations of the list, exact arithmetic", "why_tests_cant": "A statement about limits, over all permutations and all problems.", "anchors": ["src/IPF.h: IPF, solve", "src/Microsynthesis.h: rScale"]}
{"id": "C72", "title": "A table of whole numbers is left alone", "statement": "If the seed is a table of whole numbers that meets the marginals, ipf and qisi return exactly that table with conv=true (whatever skips is), and integerise of an array of whole numbers returns it unchanged with conv=true.", "quantifier": "all whole-number tables of two or more dimensions with total below 2^52 (qisi, integerise: 2^32), all consistent problems they solve, all skips from 0 to 2^31, in IEEE and in exact arithmetic", "why_tests_cant": "All tables, all sampling sequences.", "anchors": ["src/QISI.cpp: solve, getIndex", "src/Integerise.cpp: Integeriser::Integeriser", "src/IPF.h: solve"]}
{"id": "C73", "title": "The expectation reported by qisi is the ipf solution", "statement": "Whenever qisi returns, the expectation it reports is bit for bit the table that ipf returns for the same seed and marginals.", "quantifier": "all accepted problems with population below 2^52, all seeds, all skips, in IEEE and in exact arithmetic", "why_tests_cant": "Equality of the outcomes of two different template instantiations (integer and double marginals), on all inputs.", "anchors": ["src/QISI.cpp: recomputeIPF, solve, expectation", "src/IPF.h: solve", "src/module.cpp: qisi, ipf"]}
{"id": "C74", "title": "1-d integerisation keeps the order in double precision, up to one", "statement": "Whenever integerise(frac, pop) or prob2IntFreq returns, the larger of two numbers gets at most one less than the smaller, and no less than it if it stands first; equal numbers get frequencies that differ by at most one. The 'one less' does occur in IEEE double precision.", "quantifier": "all non-negative vectors, all pop below 2^31, every monotone accurate rounding (IEEE double precision included)", "why_tests_cant": "All pairs of entries of all vectors; the exceptions need ties created by rounding.", "anchors": ["src/Integerise.cpp: integeriseMarginalDistribution", "src/module.cpp: integerise1d", "src/rcpp_api.cpp: prob2IntFreq"]}
{"id": "C75", "title": "Multidimensional integerise returns the closest integer array", "statement": "Among the integer arrays with the same 1-d sums, integerise returns one with the least sum of squared differences from the array (documented in man/integerise.Rd: 'the closest integer array to the fractional population provided, preserving the sums in every dimension').", "quantifier": "all arrays of two or more dimensions with integral 1-d sums", "why_tests_cant": "Optimality over all competing integer arrays, for all arrays.", "anchors": ["src/Integerise.cpp: Integeriser::Integeriser", "man/integerise.Rd"]}
{"id": "C76", "title": "integerise puts nobody where the population is zero", "statement": "Whenever integerise returns, every cell that is zero in the input is zero in the result.", "quantifier": "all non-negative arrays of two or more dimensions, in IEEE and in exact arithmetic; all non-negative vectors with a positive sum, in exact arithmetic, and in IEEE arithmetic with (pop + 2) * (n + 3)^2 <= 2^52", "why_tests_cant": "All arrays and all sampling sequences with their refits.", "anchors": ["src/Integerise.cpp: Integeriser::Integeriser, integeriseMarginalDistribution", "src/QISI.cpp: solve"]}
{"id": "C77", "title": "Each individual of qis inverts the conditional distributions of what is left", "statement": "qis draws the i-th individual from one Sobol point. Taking the marginals in the order given, each dimension is drawn from the first marginal that names it, later dimensions of a marginal first, by inverting the cumulative distribution of what the previous individuals have left of that marginal among the cells that agree with the coordinates already drawn, with the coordinate of the point that belongs to that dimension.", "quantifier": "all accepted problems whose marginals name no dimension twice (any overlaps, whether or not conv results), all populations below 2^52, all skips, IEEE and exact arithmetic", "why_tests_cant": "It relates every individual of every population to the Sobol sequence and to all individuals before it.", "anchors": ["src/QIS.cpp: recursive_sample, sample, QIS::solve_m", "src/StatFuncs.h: pick"]}
{"id": "C78", "title": "Each individual of qisi inverts the conditional distributions of the fitted table", "statement": "qisi draws the i-th individual from the i-th Sobol point: each dimension, from the last to the first, by inverting the cumulative distribution of the working table among the cells that agree with the dimensions already drawn. The working table starts as the IPF fit of the seed (the expectation reported), loses 1 in the cell drawn, and is fitted again from the seed to what is left of the marginals whenever the cell drawn holds less than 1.", "quantifier": "all accepted problems on which the fit returns, all rational seeds, populations below 2^52, all skips; exact arithmetic", "why_tests_cant": "It relates every individual to the sequence and to the whole history of fits.", "anchors": ["src/QISI.cpp: getIndex, solve, updateIPF, recomputeIPF", "src/StatFuncs.h: pick"]}
{"id": "C79", "title": "Domain, ends and symmetry of the inverse normal distribution function", "statement": "invCumNorm throws exactly for arguments at or below -2^-52, from 1 + 2^-50 and infinite ones, and returns otherwise. At the median it gives 0, and in exact arithmetic it is antisymmetric about one half whenever erf is odd. The ends 0 and 1, which it sets out to recover, give NaN in binary64.", "quantifier": "all doubles; all mathematics libraries with the stated properties", "why_tests_cant": "The claim is about every double, including the neighbourhoods of the ends, and about every implementation of erf, exp, log and sqrt.", "anchors": ["src/StatFuncs.cpp: tail_value, cumNorm, invCumNorm"]}
{"id": "C80", "title": "Correlated pairs", "statement": "Cholesky rejects exactly correlations outside [-1,1] (NaN is accepted). It turns any two non-zero 32-bit numbers into two 32-bit numbers. The first is the first input or one less. The second is the Gaussian copula: 2^32 times the probability of rho*x + sqrt(1-rho^2)*y, x and y the normal variates of the inputs; with correlation 0 it is the second input or one less, with correlation 1 the first number, with correlation -1 2^32 less the first input or one less. With a zero among the inputs the result is undefined.", "quantifier": "all correlations and all pairs of 32-bit numbers", "why_tests_cant": "There are 2^64 pairs for each correlation, and the failing inputs form thin lines.", "anchors": ["src/StatFuncs.cpp: Cholesky::Cholesky, Cholesky::operator()"]}
{"id": "C81", "title": "Smallest and largest entry of an array, zero test, product of marginals", "statement": "min of an array is its smallest entry and max its largest; isZero holds exactly of all-zero vectors; marginalProduct is the product of the entries at the given coordinates.", "quantifier": "all arrays of 64-bit integers of any shape, all vectors, all coordinates within the marginals", "why_tests_cant": "Ranges over all arrays; max is not called by any test.", "anchors": ["src/NDArrayUtils.h: min, max, isZero, marginalProduct"]}
{"id": "C82", "title": "Arrays without cells", "statement": "An array with an empty dimension, or with no dimensions at all, passed to flatten, integerise, ipf, qis or qisi is rejected with an exception or treated as empty; it never makes the library misbehave.", "quantifier": "all arrays with an empty dimension and all arrays without dimensions, in any position among the marginals, whatever the other arguments are; Python and R", "why_tests_cant": "There are infinitely many such shapes, and the failing arithmetic is undefined behaviour, which need not show in a test run.", "anchors": ["src/NDArray.h: NDArray, resize, computeOffsets", "src/module.cpp: toNDArray, asNDArray, flatten, integerise, ipf, qis, qisi", "src/rcpp_api.cpp: convertArray, qis"]}
{"id": "C83", "title": "64-bit arithmetic does not overflow", "statement": "qis, qisi and integerise compute with 64-bit integers as if they were unbounded: however large the population is, and even while individuals are taken out of cells that become negative, no sum, count or difference leaves the range; marginals whose total does not fit in 64 bits are rejected.", "quantifier": "all index lists, all marginals of any shape with entries of any sign and size, all seeds and skips, assertions on or off; every arithmetic in which 2^63 is a double", "why_tests_cant": "Overflow needs totals near 2^63, which no test can run to the end, and intermediate sums over every subset of cells at every step.", "anchors": ["src/NDArrayUtils.h: sum, reduce", "src/Microsynthesis.h: Microsynthesis, createMappings", "src/QIS.cpp: pick, sample, solve", "src/QISI.cpp: solve, recomputeIPF", "src/Integerise.cpp: Integeriser"]}
{"id": "C84", "title": "Tables with very many cells", "statement": "qis on marginals whose table would have more cells than fit in memory throws; whatever the number of dimensions and categories, it never touches memory that was not allocated.", "quantifier": "all accepted problems, whatever the number of cells of the table, and whatever amount of memory is available", "why_tests_cant": "The number of cells is computed modulo 2^64; no test can enumerate the shapes, and a table of the size at issue cannot be built by correct code.", "anchors": ["src/NDArray.h: resize, computeOffsets, operator[]", "src/Microsynthesis.h: Microsynthesis", "src/QIS.cpp: QIS, computeStateValues"]}
{"id": "C85", "title": "QIS meets marginals that fit together", "statement": "If the marginals agree on all the dimensions they have in common, taken together, and can be arranged so that what each shares with those before it lies within a single one of them, qis returns with conv true a population that has exactly these marginals, in whatever order they are given.", "quantifier": "all accepted problems with that structure, whatever the number of dimensions shared, the sizes, the order of the marginals and the number of skips", "why_tests_cant": "Tests try marginals that share no dimension or one; the property is about every way marginals can overlap and every order of listing them.", "anchors": ["src/QIS.cpp: sample, recursive_sample, QIS::solve_m", "src/Microsynthesis.h: Microsynthesis, createMappings"]}
{"id": "C86", "title": "State sampling in QIS exceeds no marginal", "statement": "If the library is compiled with the option to sample from the states of the table (USE_STATE_SAMPLING) instead of the marginals, qis on any accepted problem either raises or returns, with conv true, a population that has exactly the given marginals; it raises \"pick failed\" only when no cell is left that every marginal allows, and so always returns (given enough Sobol points) if the marginals fit together, in whatever order they are given. The expectation it reports is the independence table scaled to the population, chiSq is the sum over the cells of the squared difference to it divided by it, and pValue is the value for that number and the sizes of the table. The expectation and the number of individuals are the same as without the option.", "quantifier": "all accepted problems, whatever the marginals, sizes, overlaps and order, all skips, in exact arithmetic and in binary64", "why_tests_cant": "The option is off in every build the tests run against, and what matters is every sequence of draws: one draw that takes a spent cell breaks the marginals.", "anchors": ["src/QIS.cpp: recursive_pick, QIS::solve_p, getFixed, QIS::updateStateValues", "src/Index.cpp: FixedIndex"]}
{"id": "C87", "title": "Sobol generators manage their memory, whatever is done with them", "statement": "Whatever generators a program creates, draws from (points or single values), skips, resets and destroys, in whatever order, and whichever of their allocations fail: every access to memory is inside a block that is allocated and, when read, has been written; nothing is freed twice; four blocks are allocated for each generator that exists and none when all are destroyed; generators do not influence one another, and each yields the points it would yield if it had no memory shared with anything. A copy of a generator, which the class rules out, could neither be destroyed nor drawn from after the original is destroyed.", "quantifier": "all finite programs over any number of generators, all dimensions and skips, all patterns of failing allocations", "why_tests_cant": "Tests create a few generators and check values; a leak, a stale pointer after reset or a read of an unwritten word shows nothing in the values, and allocations do not fail on demand.", "anchors": ["src/SobolImpl.cpp: nlopt_sobol_create, sobol_init, sobol_gen, nlopt_sobol_skip, nlopt_sobol_destroy, sobol_destroy", "src/Sobol.cpp: Sobol::Sobol, ~Sobol, buf, operator(), skip, reset"]}
{"id": "C88", "title": "Names and order of categories and dimensions do not matter to IPF", "statement": "If the categories within dimensions are permuted (in the marginals and in the seed), ipf returns the table permuted in the same way; if the dimensions of the table are listed in another order (in the index lists and the seed), it returns the transposed table; if the dimensions of a marginal are listed in another order and the array is transposed accordingly, it returns the same table. In each case conv, iterations and maxError are the same.", "quantifier": "all accepted problems of any dimension, all permutations of categories, of dimensions and of the dimensions of each marginal, all seeds, in exact arithmetic", "why_tests_cant": "There are factorially many relabellings of every problem; a test compares one or two, and an indexing mistake can be invisible for square or symmetric tables.", "anchors": ["src/IPF.h: IPF::solve", "src/Microsynthesis.h: rScale, rDiff", "src/NDArrayUtils.h: reduce, slice"]}
{"id": "C89", "title": "IPF does not depend on the unit the population is counted in", "statement": "Multiplying all marginals by the same number k multiplies the table ipf returns by k (keeping the seed): every iteration's table and its largest error are multiplied by k, and the same number of iterations is made.", "quantifier": "all accepted problems, all factors k, all seeds, in exact arithmetic", "why_tests_cant": "It relates two runs for every factor; that the absolute tolerance makes the numbers of iterations differ shows only for particular seeds and factors.", "anchors": ["src/IPF.h: IPF::solve, computeErrors", "src/Microsynthesis.h: rScale"]}
{"id": "C90", "title": "QISI does not depend on the scale of the seed", "statement": "Multiplying the seed passed to qisi by a positive constant changes nothing the caller sees: the same population, expectation and statistics, or the same exception. For powers of two this holds bit for bit in binary64.", "quantifier": "all accepted problems on which the fit returns, populations below 2^52, all seeds, skips and constants in exact arithmetic; in binary64 all powers of two, for seeds away from overflow and underflow", "why_tests_cant": "the fit is repeated an unbounded number of times from the seed, on residual marginals that depend on all the draws so far, and one bit of difference in a fit can change every later draw", "anchors": ["src/QISI.cpp: QISI::solve, QISI::recomputeIPF", "src/IPF.h: IPF::solve", "src/Microsynthesis.h: rScale", "src/module.cpp: hl::qisi"]}
{"id": "C91", "title": "The Sobol sequence has low discrepancy", "statement": "Wherever the sequence is entered, the number of the next N points of SobolSequence(dim) that lie, in a chosen set of s coordinates, in a box with a corner at the origin differs from N times the volume of the box by at most 2*2^t*(floor(log2 M)+1)^s, M the position reached plus one and t the sum of the degrees of the coordinates less one each; from the origin on, half of that. For a single coordinate the difference is at most floor(log2 N)+1, whatever the degree.", "quantifier": "all dimensions 1..1111, all sets of coordinates, all boxes, all numbers of points below 2^32", "why_tests_cant": "2^32 points, all sets of 1111 coordinates and all boxes; the equidistribution of blocks of a power of two (C63) says nothing directly about other numbers of points and other boxes", "anchors": ["src/SobolImpl.cpp: nlopt_sobol_next, sobol_gen, sobol_init", "src/Sobol.cpp: Sobol::buf, Sobol::skip", "src/SobolData.h: sobol_a, sobol_minit"]}
{"id": "C92", "title": "The normal distribution functions compute the normal distribution", "statement": "cumNorm(z) is the integral of the standard normal density up to z, within 2e-13, for every double up to 1e20 in size. invCumNorm is its inverse: for every p from 2^-32 to 1-2^-32 the returned number has probability p within 1e-12, so that it keeps the order of different 32-bit numbers. This holds in binary64 for any mathematics library whose log, exp, sqrt, erf and atan(1) are right to 14 digits.", "quantifier": "all doubles in the stated ranges; all mathematics libraries of the stated accuracy", "why_tests_cant": "a rational approximation with 21 constants and a refinement step, over all doubles in the range: a table of values checks the constants at a few points", "anchors": ["src/StatFuncs.cpp: cumNorm, invCumNorm, tail_value, a_, b_, c_, d_", "src/StatFuncs.h"]}
{"id": "C93", "title": "IPF of a unit seed converges in double precision", "statement": "For whole-number marginals on disjoint dimensions with a positive population and a seed of equal positive values, ipf in double precision converges in one iteration, and each cell of the result is the product of its marginal values divided by pop^(number of marginals - 1), up to rounding.", "quantifier": "all consistent whole-number marginals on disjoint dimensions, all constant seeds, double precision", "why_tests_cant": "The rounding errors depend on every marginal value and on the number of cells; whether they stay below the absolute tolerance has to hold for all of them.", "anchors": ["src/IPF.h: solve, computeErrors", "src/Microsynthesis.h: rScale, rDiff", "src/NDArrayUtils.h: reduce"]}
{"id": "C94", "title": "IPF in double precision is the exact answer for a nearby seed", "statement": "For any accepted problem and non-negative seed, as long as no cell of any intermediate table comes near the ends of the range of doubles (a cell is zero only if its seed or one of its marginal values is), the table ipf returns in double precision is the exact minimum-relative-entropy answer for a seed that differs from the given one, cell by cell, by a relative error of at most (iterations x marginals) / 2^53: among all non-negative tables with the marginal sums of the returned table it is the closest one to that seed, and the only one. In particular cross-product ratios along dimensions that no marginal has in common are those of the seed to within four times that error.", "quantifier": "all accepted problems, all non-negative seeds, all numbers of iterations, every rounding with relative error 2^-53", "why_tests_cant": "Rounding errors of up to a thousand sweeps over a table of any size could in principle be amplified; that they are not has to hold for every table.", "anchors": ["src/IPF.h: solve", "src/Microsynthesis.h: rScale", "src/NDArrayUtils.h: reduce"]}
{"id": "C95", "title": "IPF of two disjoint marginals converges at a known rate", "statement": "For two marginals that have no dimension in common and the same total T, and a positive seed whose cross-product ratios are at most R, the largest deviation from a marginal after n iterations of ipf is at most T (R-1) k^(2(n-1)) with k = (R-1)/(R+1), so ipf reports convergence within the first n <= 1000 for which this is below 1e-8; in particular always when T is at most ten billion and R at most 80. Neither the number of cells nor the values of the marginals (which may be zero) matter. In double precision, with whole-number marginals, at most f cells behind each marginal value and R up to 8192, the same holds with T (R l^(2(n-1)) + (f+2)(R+2)/2^50) and l = R/(R+2); in particular ipf converges when R is at most 80 and T (f+2) at most 130000.", "quantifier": "all pairs of disjoint marginals, all positive seeds, all numbers of iterations", "why_tests_cant": "The number of iterations depends on every cell of the seed; that no seed with moderate cross-product ratios runs into the iteration limit cannot be seen from examples.", "anchors": ["src/IPF.h: solve, computeErrors, s_MAXITER", "src/Microsynthesis.h: rScale, rDiff"]}
{"id": "C96", "title": "IPF of two marginals: the error when it stops", "statement": "For two marginals, which may have dimensions in common, a non-negative seed and some non-negative table t that meets both and vanishes where the seed does: whether or not ipf reports convergence, the table it returns meets the second marginal exactly (in exact arithmetic), and the sum D of its absolute differences from the first satisfies (2 iterations - 1) D^2 <= 4 population x (relative entropy of t to the seed scaled to the population); the error ipf reports is at most D. So a run that stops at the limit of 1000 iterations is off by at most about 0.045 sqrt(population x entropy) in total. Calling ipf again with the result as seed never increases D.", "quantifier": "all pairs of marginals, all non-negative seeds, all feasible tables, any number of iterations", "why_tests_cant": "How slowly ipf can converge depends on the zeros and values of the seed; a bound on the error of an unconverged result has to hold for all of them.", "anchors": ["src/IPF.h: solve, computeErrors", "src/Microsynthesis.h: rScale"]}
{"id": "C97", "title": "1-d integerisation with a larger population", "statement": "For the same proportions, a larger population never gives a group a smaller frequency.", "quantifier": "all vectors of proportions, all pairs of populations", "why_tests_cant": "The fractional parts that decide who gets the extra person change with the population in an irregular way; a violation needs a particular combination of three shares.", "anchors": ["src/Integerise.cpp: integeriseMarginalDistribution", "src/module.cpp: integerise1d", "src/rcpp_api.cpp: prob2IntFreq"]}
{"id": "C98", "title": "What the limit of IPF depends on", "statement": "In exact arithmetic, when some table meets the marginals and vanishes with the seed, the limit reached by calling ipf repeatedly depends only on (1) which tables meet the marginals, so that a repeated marginal, or one that only gives sums of another, makes no difference to it; and (2) the seed up to positive factors that each depend only on the attributes of one of the marginals: what the marginals determine need not be right in the seed.", "quantifier": "all accepted problems, all pairs of problems met by the same tables, all non-negative seeds, all factors", "why_tests_cant": "It is a statement about limits and about all problems with the same solutions.", "anchors": ["src/IPF.h: solve", "src/Microsynthesis.h: rScale"]}
{"id": "C99", "title": "IPF with two marginals converges exactly when there is a solution", "statement": "For two marginals of whole numbers (with or without dimensions in common) and a non-negative seed with zeros, some non-negative table meets both and vanishes where the seed does if and only if some table of whole numbers does, if and only if no set of categories of the first marginal has more people than the categories of the second that the non-zero cells of the seed leave for them. When that is so, calling ipf repeatedly ends with conv true. When it is not (with up to a hundred million categories), ipf reports conv false, however often it is called; in any problem, with whatever further marginals, if two of its marginals are blocked in this way. In double precision the latter holds unless a cell has become NaN, with allowance for the rounding of the sums.", "quantifier": "all pairs of whole-number marginals, all seeds, all sets of categories, all numbers of calls", "why_tests_cant": "Whether a pattern of zeros admits a solution depends on all subsets of categories; convergence is a limit.", "anchors": ["src/IPF.h: solve, computeErrors", "src/Microsynthesis.h: rScale, rDiff"]}
{"id": "C100", "title": "QISI succeeds when the problem has a solution", "statement": "If some population of whole numbers has the given marginals and is zero wherever the seed is zero, qisi returns with conv true.", "quantifier": "all problems, all non-negative seeds, all numbers of skips", "why_tests_cant": "Success depends on every draw of a quasirandom walk and on every refit of the remaining problem; a failure needs a seed for which ipf converges slowly and a population large enough to reach the wrong cell.", "anchors": ["src/QISI.cpp: solve, getIndex, recomputeIPF", "src/IPF.h: solve"]}
{"id": "C101", "title": "IPF of marginals that fit together is the chain-rule table", "statement": "With a constant positive seed and marginals listed so that each has an earlier one that names all the dimensions it shares with those before it and agrees with it there (the running intersection property), ipf converges in one iteration with maxError 0, meets every marginal, and every cell is the population times, for each marginal in order, the share of the cell among the cells of that marginal with the same entries at the dimensions named before.", "quantifier": "all numbers of dimensions, all sizes, all such lists of marginals with rational entries, all constant positive seeds; exact arithmetic", "why_tests_cant": "It is a closed form of the result for every problem of a class with no bound on its dimension or size.", "anchors": ["src/IPF.h: solve, scale", "src/NDArrayUtils.h: reduce"]}
{"id": "C102", "title": "QISI fits marginals that fit together", "statement": "With a constant positive seed and marginals as in C101, qisi returns with conv true: a population of non-negative counts that meets every marginal.", "quantifier": "all such problems with a population below 2^32 and up to 1111 dimensions, all numbers of skips from 0 to 2^31; exact arithmetic", "why_tests_cant": "Success depends on every draw of the quasirandom walk and on every refit of the remaining problem.", "anchors": ["src/QISI.cpp: solve, getIndex, recomputeIPF", "src/IPF.h: solve"]}
{"id": "C103", "title": "IPF of marginals that fit together in double precision", "statement": "With a constant seed and whole-number marginals as in C101, K marginals and at most f cells in the sum for one marginal value, ipf in double precision converges in one iteration when pop ((2^K-1)(f+2)+f) is at most 89 million, and every cell is the table of C101 within (2^K-1)(f+2) roundings.", "quantifier": "all such problems (pop^K times the number of cells at most 2^90), all constant seeds from 2^-100 to 2^100, every rounding that is faithful to IEEE 754 double precision", "why_tests_cant": "The rounding errors of every sum, quotient and product of the sweep must be bounded for every input.", "anchors": ["src/IPF.h: solve, scale", "src/NDArrayUtils.h: reduce, diff"]}
{"id": "C104", "title": "Multidimensional integerise rounds every cell up or down", "statement": "In an array of two or more dimensions with whole-number sums in every dimension, integerise replaces every cell by one of the two whole numbers next to it, and leaves a cell alone that holds a whole number (as it does for vectors, C46).", "quantifier": "all non-negative arrays of two or more dimensions with whole-number sums", "why_tests_cant": "All arrays; whether a cell strays depends on the points of the Sobol sequence and on the refits they cause.", "anchors": ["src/Integerise.cpp: Integeriser::Integeriser", "src/QISI.cpp: solve"]}
{"id": "C105", "title": "Adding attributes to a qis problem does not change the population of the others", "statement": "If dimensions are added after those of a qis problem, and marginals after its marginals, and qis returns for the larger problem, then for the same number of skips it returns for the smaller one the population of the larger one summed over the added dimensions, and meets the marginals of the smaller one if it meets those of the larger one. If each added marginal shares at most one dimension with all the marginals before it, qis meets the marginals of the larger problem exactly when it meets those of the smaller one.", "quantifier": "all consistent problems of two or more dimensions and marginals, all consistent extensions, populations below 2^52, all numbers of skips, any rounding", "why_tests_cant": "All problems and all extensions; a test compares single runs.", "anchors": ["src/QIS.cpp: QIS::solve_m, sample, recursive_sample", "src/Sobol.cpp: Sobol::buf"]}
{"id": "C106", "title": "QIS meets every marginal that names a new dimension", "statement": "Whenever qis returns, even with conv false, its population has exactly each marginal that names a dimension none of the marginals given before it names; in particular the first marginal. If every marginal names such a dimension, qis never returns with conv false (it can still raise).", "quantifier": "all accepted problems with a population below 2^52 whose marginals name no dimension twice, all numbers of skips, IEEE and exact arithmetic", "why_tests_cant": "It is about all trajectories, including those that spend other marginals below zero.", "anchors": ["src/QIS.cpp: sample, recursive_sample, QIS::solve"]}
{"id": "C107", "title": "Empty categories make no difference to qis", "statement": "Putting categories with no people in them into the marginals of a problem, anywhere and in any number of dimensions, changes nothing but the shape of the result of qis: it returns for the one if and only if for the other, with the same conv, the same number of people in every combination of the old categories and nobody in the new ones.", "quantifier": "all accepted problems with a population below 2^52 whose marginals name no dimension twice, all ways of placing the categories in order among more, all numbers of skips, IEEE and exact arithmetic", "why_tests_cant": "It relates two runs of the sampler on tables of different shapes, for every problem and every placement.", "anchors": ["src/QIS.cpp: pick, recursive_sample, sample, QIS::solve", "src/Index.cpp: MappedIndex, FixedIndex", "src/NDArrayUtils.h: slice, reduce"]}
{"id": "C108", "title": "Empty categories make no difference to ipf", "statement": "Putting categories with no people in them into the marginals, anywhere and in any number of dimensions, with a seed that is zero there, changes nothing but the shape of the result of ipf: it returns for the one if and only if for the other, and when every cell of the result is a number, with the same conv, number of iterations and largest error, the same numbers bit for bit in the old categories and zeros in the new ones.", "quantifier": "all problems whose marginals name no dimension twice and leave one out, all seeds, all ways of placing the categories in order among more; IEEE and exact arithmetic (in exact arithmetic the cells are always numbers)", "why_tests_cant": "It relates two fits of different shapes step by step, for every problem, seed and placement, in floating point.", "anchors": ["src/IPF.h: solve, computeErrors", "src/Microsynthesis.h: rScale, rDiff", "src/NDArrayUtils.h: reduce"]}
{"id": "C109", "title": "Arrays behave as values", "statement": "A program that makes, moves, copies, resizes, releases and destroys arrays, reads and writes elements, wraps arrays round blocks of its own and uses and deletes those blocks, gets exactly the results it would get if every array owning its storage were a value and every other array a view of one of the caller's blocks. In particular the elements of an array that owns its storage are changed by nothing that is not done to that array; a copy has all the elements of the original and shares none with it; a moved array has the elements of the one it was moved from; an array wrapped round a block and the block itself show the same elements; and undefined behaviour arises only where it would for values and views (an index out of range, an element never written, no or empty dimensions, a deleted block).", "quantifier": "all sequences of operations on any number of arrays and blocks that use no array after it was moved from or destroyed, copy no array onto itself and release only arrays with storage; all element types, sizes, indices and values; allocations that succeed", "why_tests_cant": "Aliasing and lifetime mistakes depend on the history of operations on all the arrays and pointers in the program; the histories are unbounded.", "anchors": ["src/NDArray.h: NDArray, copy, resize, assign, operator[], release, ~NDArray"]}
{"id": "C110", "title": "The self-test report is consistent", "statement": "Every report returned by unitTest() (R) or _unittest() (Python) lists as many errors as it counts failures and counts no more failures than tests. It is the same whatever self-tests ran before, also ones that ended with an exception. It has no failures if and only if all test functions run to their end and every check in them holds, and then the number of tests is the number of checks. Its errors are those of the checks that do not hold, in order, each naming the place of its check. The tolerance comparison used by the checks does not depend on the order of its arguments.", "quantifier": "all sequences of checks (of conditions, of equality, of exceptions thrown) with any conditions, side effects and exceptions; all histories of earlier runs; all doubles", "why_tests_cant": "The report is what the tests themselves are judged by, and it depends on state that lives as long as the library is loaded.", "anchors": ["src/UnitTester.h: Logger, CHECK, CHECK_EQUAL, CHECK_THROWS", "src/UnitTester.cpp: run, withinTolerance", "src/Global.h: instance", "src/rcpp_api.cpp: unitTest", "src/module.cpp: unittest"]}
{"id": "C111", "title": "Empty categories make no difference to qisi", "statement": "Putting categories with no people in them into the marginals, anywhere and in any number of dimensions, with a non-negative seed that is zero there, changes nothing but the shape of the population and of the expected population: provided that all the fits consist of numbers, qisi returns for the one problem if and only if it does for the other, with the same people and the same expected values bit for bit in the old categories, nobody in the new ones, and the same conv.", "quantifier": "all problems whose marginals name no dimension twice and leave one out, all non-negative seeds, all skips, all ways of placing the categories in order among more; IEEE and exact arithmetic (in exact arithmetic the fits always consist of numbers)", "why_tests_cant": "It relates two runs with different shapes, draw by draw and fit by fit, for every problem, seed and placement, in floating point.", "anchors": ["src/QISI.h: solve, recomputeIPF, getIndex", "src/Index.h: FixedIndex", "src/NDArrayUtils.h: slice, pick", "src/IPF.h: solve"]}
{"id": "C112", "title": "1-d integerisation is the method of largest remainders", "statement": "integerise(frac, pop), prob2IntFreq and integerise of a 1-d array round every share down and then give one more to those with the largest remainders, and among equal remainders to the first, until the population is reached. In double precision the same holds for the shares x / sum * pop as they are computed.", "quantifier": "all vectors without negative entries and with a positive sum, all populations below 2^31; in doubles, entries that are zero or normal with (pop + 2) * (n + 3) at most 2^51", "why_tests_cant": "It says completely what is returned for every vector, including every pattern of ties.", "anchors": ["src/Integerise.cpp: integeriseMarginalDistribution, Integeriser", "src/rcpp_api.cpp: prob2IntFreq, integerise", "src/module.cpp: integerise1d"]}
{"id": "C113", "title": "Empty categories make no difference to integerise", "statement": "Putting entries that are zero into a vector, or slices of zeros into an array of any number of dimensions, changes nothing but the shape of what integerise returns: the new entries are zero, the old ones are unchanged, conv is the same, and integerise returns for the one if and only if it does for the other.", "quantifier": "all non-negative vectors and arrays, all ways of placing the entries or slices in order among more; IEEE and exact arithmetic (for arrays in IEEE arithmetic provided that all the fits consist of numbers, for vectors in IEEE arithmetic within the bounds of C112)", "why_tests_cant": "It relates two runs with different shapes for every array and placement, in floating point.", "anchors": ["src/Integerise.cpp: integeriseMarginalDistribution, Integeriser", "src/QISI.h: solve", "src/rcpp_api.cpp: prob2IntFreq"]}
{"id": "C114", "title": "The unit of the shares and the order of the groups make no difference to 1-d integerisation", "statement": "integerise(frac, pop) only depends on the proportions between the entries of frac: multiplying them all by a positive number changes nothing (in double precision: by a power of two). When the entries are given in another order, every group whose share is whole or whose remainder no other group has gets the same frequency, and any other group at most one more or less (ties go to the first, so that those can change).", "quantifier": "all vectors (for the order: non-negative ones with a positive sum), all populations, all positive factors, all orders; exact arithmetic, and binary64 for powers of two when the entries are zero or between 2^-400 and 2^400", "why_tests_cant": "It compares two runs for every vector, factor and order.", "anchors": ["src/module.cpp: integerise1d", "src/Integerise.cpp: integeriseMarginalDistribution, Integeriser"]}
{"id": "C115", "title": "qis is a complete rule: sequential sampling from what is left of the marginals, no more and no less", "statement": "Given consistent integer marginals, the points of the Sobol sequence after the skipped ones determine everything qis returns. Read each individual off the next point: go through the marginals in order, and through the attributes of each marginal from the last to the first, leaving out attributes already drawn; give each attribute the first category whose running total of what is left of the marginal (in the cells that agree with what is already drawn) passes the fraction of the total the point asks for. qis returns a population exactly when every individual can be read off in this way, and then it is the population of these individuals, declared converged exactly when it meets every marginal; otherwise it throws that no category can be picked (or that the sequence is used up).", "quantifier": "all consistent integer marginals in which no marginal names an attribute twice, of at most 1111 attributes and fewer than 2^52 individuals, all skips between 0 and 2^31, all roundings that satisfy the IEEE laws", "why_tests_cant": "An equivalence between two descriptions of the algorithm, for every problem and every point sequence.", "anchors": ["src/QIS.cpp: QIS::solve", "src/Index.h", "src/Sobol.cpp", "src/NDArrayUtils.h: pick, slice, reduce"]}
{"id": "C116", "title": "A marginal over attributes already named by earlier ones takes no part in qis's sampling", "statement": "Adding to the marginals given to qis one whose attributes are all named by marginals before it makes no difference to whether a population is returned, nor to the population: it is only compared with the result, so the population is declared converged exactly when it is without that marginal and happens to meet it. If the marginal only repeats sums of an earlier one (some of its attributes, in any order), nothing at all changes.", "quantifier": "all consistent integer marginals in which no marginal names an attribute twice (fewer than 2^52 individuals, two or more marginals without the one added), all places of the added marginal after those that name its attributes, all skips between 0 and 2^31, all roundings that satisfy the IEEE laws", "why_tests_cant": "It compares two runs for every problem and every added marginal.", "anchors": ["src/QIS.cpp: QIS::solve", "src/QIS.h", "src/Microsynthesis.h"]}
{"id": "C117", "title": "qisi is a complete rule: sampling without replacement from a fitted table, refitted when a cell runs out", "statement": "Given consistent integer marginals and a seed, the points of the Sobol sequence from its start (the skips make no difference) determine everything qisi returns. Start with the IPF fit of the seed to the marginals. Read each individual off the next point, attribute by attribute from the last to the first: the first category whose running total in the working table (in the cells that agree with what is already drawn) passes the fraction of the total the point asks for. Then take one from the cell drawn if it holds at least one; if not, fit the seed to what is left of the marginals. qisi returns a population exactly when all individuals can be drawn in this way, and then it is the population of these individuals, the expectation is the first table, and convergence is reported exactly when every marginal is met.", "quantifier": "all consistent integer marginals each of which leaves out an attribute, of at most 1111 attributes and fewer than 2^52 individuals, all seeds, all skips between 0 and 2^31; exact arithmetic, and with the tables and totals rounded for all roundings that satisfy the IEEE laws", "why_tests_cant": "An equivalence between two descriptions of the algorithm, for every problem, seed and point sequence.", "anchors": ["src/QISI.cpp: QISI::solve", "src/IPF.h: IPF::solve", "src/Sobol.cpp", "src/NDArrayUtils.h: pick, slice, reduce"]}
{"id": "C118", "title": "From distributions to a table of individuals", "statement": "Integerise two or more distributions to the same population, pass the frequencies to qis and the result to flatten: no step fails, qis reports convergence, and the table has one row for each individual and one column for each distribution, in which every category occurs exactly as often as its frequency says. More generally, whenever qis or qisi reports convergence, flatten of the result has one row for each individual, and counting the rows by the attributes of any marginal gives that marginal back.", "quantifier": "all lists of 2 to 1111 distributions of doubles (normal numbers or zero, with a positive sum), all populations below 2^31 for which population times length is below 2^53, all skips from 0 to 2^31, all roundings that satisfy the IEEE laws; all consistent integer marginals for the second part", "why_tests_cant": "A property of the composition of three functions for every input.", "anchors": ["src/Integerise.cpp: integeriseMarginalDistribution", "src/QIS.cpp: QIS::solve", "src/NDArrayUtils.h: listify", "src/module.cpp: humanleague_integerise, humanleague_qis, humanleague_flatten"]}
{"id": "C119", "title": "From a fitted table to a population", "statement": "If ipf converges to marginals of whole numbers, integerise of the fitted table raises an exception or returns a population: non-negative whole numbers that sum to the population, with nobody where the seed of ipf is zero, and conv true exactly when the total of every category is what the marginals say. With one marginal for each attribute and a constant seed nothing is raised and every total is met.", "quantifier": "all consistent integer marginals of fewer than 2^52 individuals with at most ten thousand entries each, all non-negative seeds on which ipf converges (exact arithmetic); with a marginal for each attribute, when integerise returns, all seeds and all roundings that satisfy the IEEE laws", "why_tests_cant": "A property of the composition of two functions for every input.", "anchors": ["src/IPF.h: IPF::solve", "src/Integerise.cpp: Integeriser", "src/QISI.cpp: QISI::solve"]}
{"id": "C120", "title": "Frequencies can be edited while sampling without replacement", "statement": "After a frequency of the sampler without replacement is changed through operator[], sampling goes on with the new frequencies: every state is drawn exactly as often as its new frequency says, and the sampler is empty after that.", "quantifier": "all frequencies with a total below 2^32, all edits, all random numbers, all roundings that satisfy the IEEE laws", "why_tests_cant": "A property of all histories of edits and draws.", "anchors": ["src/DDWR.h: discrete_distribution_without_replacement::operator[], operator()"]}
{"id": "C121", "title": "An index object is a cursor that can be rewound", "statement": "After any history of ++ and reset an Index (a TransposedIndex) stands on the cell found by counting the advances since it was made or last reset, round and round over the cells in row-major (column-major) order; it says it has ended exactly when there were at least as many advances as cells; reset brings back the state of a new index. A MappedIndex moves only the dimensions it was made for, a FixedIndex only the free ones, in the same way. An index with every dimension fixed never ends.", "quantifier": "all shapes with positive sizes, all histories of ++ and reset of any length, all choices of mapped and fixed dimensions", "why_tests_cant": "A property of all histories; the tests never advance past the end or reset.", "anchors": ["src/Index.cpp: Index::operator++, Index::reset, Index::end, TransposedIndex::operator++, MappedIndex::operator++, FixedIndex::operator++"]}
{"id": "C122", "title": "What a call leaves in the caller's marginals", "statement": "When ipf returns, the marginals the caller passed hold what they held before; in Python this goes for the memory of the numpy arrays, which ipf uses in place. The C++ classes QIS and QISI use up the list they are given: when solve returns, every entry has been reduced by what the result holds of it, conv is true exactly when only zeros are left, and the same list passed again then gives the empty population.", "quantifier": "ipf: all inputs, any arithmetic, with and without assertions; qis and qisi: all consistent problems, all skips, all roundings that satisfy the IEEE laws", "why_tests_cant": "A side effect, to be excluded or described for every input; no test looks at the arguments after a call.", "anchors": ["src/Microsynthesis.h: m_marginals", "src/IPF.h: IPF::solve", "src/QIS.cpp: QIS::solve_m", "src/QISI.cpp: QISI::solve", "src/module.cpp: ipf, asNDArray, toNDArray"]}
{"id": "C123", "title": "Refusal messages are true", "statement": "Whenever qis or qisi refuse their index lists and integer marginals, they do so with a message that is true of them: the list lengths it gives are those of the lists and do not fit; the dimension it says is redefined had the first size at an earlier place and has the second at the one named; the negative value is the least entry of the named marginal and no earlier marginal has a negative entry; the dimension it says is undefined is named nowhere and all lower ones are named; the sums and partial sums it shows are those of the input, differ, and belong to the first marginal or place that disagrees.", "quantifier": "all index lists (any integers, any lengths), all integer marginals without empty dimensions and with totals below 2^52, all roundings that satisfy the IEEE laws", "why_tests_cant": "The tests check only that something is thrown. Which of the eight checks fires first, with which operands, depends on the whole input.", "anchors": ["src/Microsynthesis.h: Microsynthesis, createMappings", "src/Log.h: operator%"]}
{"id": "C124", "title": "Fitting all regions in one call of ipf is fitting each region by itself", "statement": "Let dimension 0 of the table (a region, say) be the first dimension of every marginal. Then after any number of iterations of ipf the part of the table for a region is, bit for bit, what the same number of iterations makes of the region's part of the seed with the region's part of the marginals: regions influence each other only through the number of iterations. A region whose own call of ipf takes as many iterations as the call for all gets the same table. The call for all converges only if the calls for all regions do, after no fewer iterations than each; if a region's call does not converge neither does the call for all; and if all converge after the same number of iterations, so does the call for all. If the regions' marginals are consistent, so are those of all regions together, with the sum of the populations.", "quantifier": "all numbers of regions, table sizes, stratified problems, seeds (any doubles) and arithmetics (exact, binary64, any rounding)", "why_tests_cant": "A test compares a few regions; the independence is about all problems, and about bits, which depend on the order of summation in all of them.", "anchors": ["src/IPF.h: solve, computeErrors", "src/Microsynthesis.h: rScale, rDiff, Microsynthesis", "src/NDArrayUtils.h: reduce"]}
{"id": "C125", "title": "Marginals that say nothing new make no difference to ipf", "statement": "In exact arithmetic: listing a marginal twice in a row makes no difference to ipf, whatever the seed: the same table, conv, number of iterations, population and largest error. Listing, just before a marginal, a coarser one that it implies (its sums over some of its dimensions) makes no difference to the table after each number of iterations, for seeds without negative cells: if ipf converges with it then also without it, after no more iterations, and for the same number of iterations the table is the same.", "quantifier": "all table sizes, consistent rational problems, marginals in any position and seeds (any rational seed; for the second part without negative cells)", "why_tests_cant": "A test tries a few redundant marginals; that a scaling is the identity must hold for every table it can be applied to.", "anchors": ["src/IPF.h: solve", "src/Microsynthesis.h: rScale, rDiff"]}
{"id": "C126", "title": "ipf treats categories alike that cannot be told apart", "statement": "If the seed and every marginal have the same numbers in two categories of an attribute, so does the table ipf returns, bit for bit: whichever place the categories have in the order of summation makes no difference to them.", "quantifier": "all table sizes, problems, seeds (any doubles, NaN included), pairs of categories, numbers of iterations and arithmetics (exact, binary64, any rounding)", "why_tests_cant": "Equality of bits depends on the order of summation over every cell of every table; a test compares a few.", "anchors": ["src/IPF.h: solve", "src/Microsynthesis.h: rScale", "src/NDArrayUtils.h: reduce"]}
{"id": "C127", "title": "Splitting categories in fixed proportions makes no difference to ipf", "statement": "Let the categories of some or all attributes be split into parts (or parts merged), with the seed and every marginal shared out among the parts in fixed proportions that add up to one. In exact arithmetic the split problem is accepted for the same population, the table after each number of iterations is the old table shared out in the same proportions, so that adding up the parts gives the old table; if ipf converges for the original it does for the split problem, after no more iterations.", "quantifier": "all table sizes, consistent rational problems, seeds (signs included), ways of splitting categories of all dimensions at once and proportions (zero included)", "why_tests_cant": "A test splits a few categories of one table; the claim is for every refinement of every problem and every number of iterations.", "anchors": ["src/IPF.h: solve, computeErrors", "src/Microsynthesis.h: rScale, rDiff, Microsynthesis"]}
{"id": "C128", "title": "The error reported by integerise is the one made, and integerise of an array is qisi", "statement": "The rmse reported by integerise is the square root of the mean, over all cells, of the squared difference between the returned and the given array (exactly in exact arithmetic, for vectors and for arrays with more dimensions; for the latter up to an explicit number of roundings in double precision). For an array with two or more dimensions whose total and 1-d sums are within the tolerance of whole numbers, integerise returns the table and conv that qisi returns for these whole numbers as 1-d marginals and the array as seed, and fails in the same way if that call fails.", "quantifier": "all arrays (any sizes, two or more dimensions; non-negative vectors), every square root and mathematics library; the qisi clause in every arithmetic", "why_tests_cant": "Tests compare rmse with a constant for one or two arrays.", "anchors": ["src/Integerise.cpp:Integeriser::Integeriser", "src/Integerise.cpp:integeriseMarginalDistribution", "src/QISI.cpp:QISI::solve"]}
{"id": "C129", "title": "The messages about seeds, whole numbers and Sobol dimensions are true and their numbers can be read back", "statement": "A whole number printed in a message reads back as that number, different lists print differently, and a finite double is printed as a decimal with six places, within half a unit of the last place and with a minus sign exactly if negative; infinities keep their sign and no value that is not finite prints like any other value. ipf and qisi complain about the shape of the seed exactly if it is not that of the problem, giving the numbers of dimensions if these differ and both lists of sizes otherwise; the R interface names the first dimension whose size is wrong, counted from 1. The message of integerise appears for finite values further than 0.00009999 from every whole number only, and the number it prints is not a whole number. The message about the dimension of a Sobol sequence appears exactly for dimensions outside the range it gives. In the R interface the number of a marginal in a message counts from the end of the caller's list, starting with 0.", "quantifier": "all seeds, shapes, values (double precision arithmetic included) and dimensions below 2^61; all lists of marginals", "why_tests_cant": "Tests trigger each message once, at most, and seldom look at the text.", "anchors": ["src/Log.h: to_string", "src/Microsynthesis.h: Microsynthesis", "src/IPF.h: solve", "src/QISI.cpp: solve", "src/Integerise.cpp: Integeriser", "src/Sobol.cpp: Sobol", "src/NDArrayUtils.h: reduce", "src/rcpp_api.cpp: ipf, qisi"]}
{"id": "C130", "title": "ipf's messages about double marginals are true", "statement": "Every exception that ipf (or the constructor with double marginals) raises for index lists and marginals carries a message that is true of them, and names the first offence: the smallest entry of the first marginal with a negative one, the rounded totals that differ, or sums along a shared dimension that are not within 1e-8. Doubles that differ by more than 1e-6 are printed differently.", "quantifier": "all index lists and double marginals without empty dimensions (infinities and NaN included), any arithmetic; exact sums for rational marginals", "why_tests_cant": "Tests check that an exception is raised for a few inputs, not what its message says.", "anchors": ["src/Microsynthesis.h: Microsynthesis, createMappings", "src/NDArrayUtils.h: min, sum, reduce, allclose", "src/Log.h: to_string"]}
{"id": "C131", "title": "What an unconverged ipf table can be used for", "statement": "In exact arithmetic, whether or not ipf reports convergence: the table it returns has, in every category of the marginal listed last, exactly the requested number or nothing at all; it never holds more than the population; the reported error is between 0 and the population. If some non-negative table meets all the marginals and has the seed's zeros, the last marginal is met exactly, the total is the population, no cell that such a table uses is zero, and the result is at least as close (in relative entropy) to every such table as the seed was; calling ipf again with the result never leads away from any of them. In double precision, when seed and marginals are of moderate size (2^-200 to 2^200, or zero) and no tiny number turns up in the run, the last marginal and the total are met to within a relative error of (f+2)/2^53, f being the largest number of cells in a sum.", "quantifier": "all consistent rational problems, all seeds (non-negative ones for the error and the closeness), any number of iterations; exact arithmetic, and any arithmetic with the accuracy of binary64 for the last statement", "why_tests_cant": "Tests look at converged fits of a few problems; what holds after 1000 iterations without convergence must hold for every problem and seed.", "anchors": ["src/IPF.h: IPF::solve", "src/Microsynthesis.h: rScale", "src/NDArrayUtils.h: reduce, scale"]}
{"id": "C132", "title": "ipf and qisi only use the seed's proportions within the categories of the first marginal", "statement": "Multiplying all cells of the seed that belong to one category of the first marginal listed by a non-zero factor of that category's own changes nothing in the outcome of ipf (table, iterations, error, flag, or exception) or of qisi (population, expectation, statistics, or exception). In particular a seed of counts and the seed of proportions within those categories are interchangeable. This holds in exact arithmetic for any factors, and bit for bit in double precision when the factors are powers of two and seed and first marginal stay clear of underflow and overflow. It is special to the first marginal: factors on the categories of another one change the iterations and the table.", "quantifier": "all shapes, accepted or refused marginals, seeds, factors, skips", "why_tests_cant": "the claim is about pairs of seeds related by arbitrary factors, over any number of dimensions and iterations", "anchors": ["src/IPF.h: solve", "src/Microsynthesis.h: rScale", "src/QISI.cpp: solve, recomputeIPF"]}
{"id": "C133", "title": "ipf with a positive seed stays near the independence table, and in doubles nothing underflows", "statement": "Marginals without common dimensions, all entries positive, and a seed whose cells are all between lo > 0 and hi. In exact arithmetic, converged or not, every cell of the table ipf returns is that of the independence table (the answer for a constant seed) up to the factor (hi/lo)^(K+1), K being the number of marginals. In double precision, for numbers that are not extreme, no cell of any table of the run, in up to 1000 iterations, is NaN, infinite, zero or below 2^-200; the table returned is positive, within the factor 2 (2 hi/lo)^(K+1) of the independence table, meets the marginal listed last up to the rounding of one sum, and is the exact answer for a slightly different seed; and conv true means that all marginals are met within the tolerance. None of this needs a condition on the run.", "quantifier": "all problems with disjoint marginals (any number of dimensions and marginals), all positive seeds, any number of iterations", "why_tests_cant": "Underflow or a NaN needs a particular problem, seed and iteration; the bound must hold after every scaling of every run.", "anchors": ["src/IPF.h: IPF::solve, rScale", "src/NDArrayUtils.h: reduce, scale"]}
{"id": "C134", "title": "ipf with any number of disjoint marginals converges at a known rate", "statement": "K marginals without common dimensions and a positive seed, in exact arithmetic. The largest difference from a marginal that ipf reports after n iterations is bounded by a formula in n, K, the total and the largest cross-product ratio of the seed, which decreases geometrically; the number of cells and the marginals' values (zeros included) do not enter. So ipf converges within its 1000 iterations: for two marginals if no cross-product ratio of the seed exceeds 6400; for three if the seed's cells differ by at most a factor 2.8 (totals up to ten billion); and for any K within 100 iterations if the seed's cells differ from each other by no more than the part 1/(K-1) (totals up to 10^20).", "quantifier": "all problems with disjoint marginals (any number of dimensions, categories and marginals), all positive seeds within the stated spread, every number of iterations", "why_tests_cant": "Convergence within the limit is claimed for a continuum of seeds and for marginals of every size; a test runs one of them.", "anchors": ["src/IPF.h: IPF::solve, rScale, MAXITER, TOL", "src/NDArrayUtils.h: reduce, scale"]}
{"id": "C135", "title": "ipf with a positive seed converges in double precision", "statement": "K marginals without common dimensions, all entries positive, at most f cells in the sum for one entry, and a positive seed whose cells differ from each other by no more than the part 9/(10 (K-1)), none of the numbers extreme. If the population times 4 K^2 (f+2) + f + 1 is at most 89 million, ipf in double precision reports convergence, after at most 100 iterations: rounding errors cannot keep the reported error above the tolerance. The same holds for seeds whose cells differ much, as long as the cross-product ratios of the seed between the dimensions of one marginal and those of the others are at most theta^2, with (K-1)(theta-1) at most 9/10.", "quantifier": "all problems with disjoint positive marginals (any number of dimensions, categories and marginals), all positive seeds within the stated spread, every rounding of the run", "why_tests_cant": "The tolerance is absolute and near the rounding errors of large tables, so whether the loop ever stops depends on the rounding of every cell of every iteration; C93 shows a problem with a larger population on which it does not.", "anchors": ["src/IPF.h: IPF::solve, rScale, computeErrors, MAXITER, TOL", "src/NDArrayUtils.h: reduce, scale"]}
{"id": "C136", "title": "The table ipf returns is near the closest table, cell by cell", "statement": "K marginals without common dimensions and entries of at least m, and a positive seed whose cross-product ratios are at most rho^2, with lam = (K-1)(rho-1)/(rho+1) below one. There is exactly one table that meets the marginals and has the least relative entropy with respect to the seed. In exact arithmetic every cell of the table ipf returns is that table's cell up to a factor exp((2K/(1-lam)+1) 2e/m), where e is the error ipf reports, converged or not; for two marginals, entries of at least one and ratios up to four, a converged table is right to 0.3 parts in a million in every cell. In double precision, under the conditions of C135 and with entries of at least one, every cell is right up to the part (8K+4)(2.2e-8 + 1.3e-14 K (f+2)).", "quantifier": "all problems with disjoint positive marginals (any number of dimensions, categories and marginals), all positive seeds within the stated ratios, every rounding of the run", "why_tests_cant": "ipf stops when the sums are near the marginals; whether the cells are near the right ones is not observable without the exact answer, which is irrational in general, and depends on the conditioning of every problem.", "anchors": ["src/IPF.h: IPF::solve, rScale, computeErrors, TOL", "src/NDArrayUtils.h: reduce, scale"]}
{"id": "C137", "title": "Small changes of the seed or the marginals change ipf's table only a little", "statement": "K marginals without common dimensions, and a positive seed whose cross-product ratios are at most rho^2, with lam = (K-1)(rho-1)/(rho+1) below one. If the cells of the seed change by factors up to exp(beta) and the entries of the marginals by factors up to exp(delta), every cell of the closest table changes by at most a factor exp((2K/(1-lam)+2) beta + (2K/(1-lam)+1) delta). The tables ipf returns in exact arithmetic do too, with delta increased by 2e/m + 2e'/m for the reported errors e and e' and smallest entry m. For two marginals and ratios up to four, seeds within a factor F and marginals within a factor G give converged tables within a factor F^8 G^7 (1 + 3e-7). In double precision, under the conditions of C136, the factor is exp((4K+2) beta + (4K+1) delta) (1+E)/(1-E), where E is the part of C136.", "quantifier": "all pairs of problems over the same disjoint dimensions with positive marginals (any number of dimensions, categories and marginals), all pairs of positive seeds, the first within the stated ratios, every rounding of both runs", "why_tests_cant": "Compares the answers of two runs for every pair of nearby inputs; a perturbation experiment samples a few directions at a few problems, and the amplification depends on both.", "anchors": ["src/IPF.h: IPF::solve, rScale, computeErrors, TOL", "src/NDArrayUtils.h: reduce, scale"]}
{"id": "C138", "title": "Raising the seed in some cells does not lower them in ipf's table", "statement": "Multiply the cells of the seed in any set S by a factor above one and leave the rest. For any marginals, the total of the cells in S in the closest table does not get smaller; with S one cell, that cell does not get smaller. ipf in exact arithmetic, called again on its own result often enough, gives tables for which this holds up to any epsilon, whenever some table meets the marginals and vanishes where the seed does. For a single call, under the conditions of C136 for both seeds, it holds up to the error bound of C136 in exact arithmetic and in double precision. More generally the changes of the table and of the logarithm of the seed are never opposed on the whole.", "quantifier": "all marginals, all seeds (zeros included) and sets of cells for the closest tables and repeated calls; disjoint positive marginals and positive seeds within the stated ratios for a single call; every rounding of both runs", "why_tests_cant": "Compares the limits of two runs for every problem, every set of cells and every factor.", "anchors": ["src/IPF.h: IPF::solve, rScale, computeErrors", "src/NDArrayUtils.h: reduce, scale"]}
{"id": "C139", "title": "Raising the seed in some cells by a factor raises them in ipf's table by at most that factor", "statement": "Multiply the cells of the seed in any set S by a factor t above one and leave the rest. For any marginals, the total of the cells in S in the closest table gets at most t times as large; with S one cell, doubling that cell of the seed at most doubles it in the table. Together with C138 the total lies between its old value and t times that. ipf in exact arithmetic, called again on its own result often enough, gives tables for which this holds up to any epsilon, whenever some table meets the marginals and vanishes where the seed does. For a single call, under the conditions of C136 for both seeds, it holds up to the error bound of C136 in exact arithmetic and in double precision.", "quantifier": "all marginals, all seeds (zeros included), sets of cells and factors for the closest tables and repeated calls; disjoint positive marginals and positive seeds within the stated ratios for a single call; every rounding of both runs", "why_tests_cant": "Compares the limits of two runs for every problem, every set of cells and every factor.", "anchors": ["src/IPF.h: IPF::solve, rScale, computeErrors", "src/NDArrayUtils.h: reduce, scale"]}
{"id": "C140", "title": "A table ipf has already fitted is as good a seed as the one it was fitted from", "statement": "Fit some marginals with positive entries, for example last year's or only some of this year's, from a seed by any number of calls of ipf, converged or not, and then use the result as the seed for other marginals, each of the first marginals having its attributes among those of one of the second. The tables closest to this seed are exactly those closest to the original seed, and repeated calls of ipf tend to the same limit from either, in exact arithmetic, whenever some table meets the second marginals and vanishes where the original seed does. For a single call with disjoint marginals under the conditions of C136 (which the fitted table inherits from the original seed) the two answers agree in every cell up to the error bound of C136. The entries must be positive: if a category was empty in the first marginals and is not in the second, ipf never converges from the fitted table. In double precision, with disjoint second marginals under the conditions of C136 and a first stage of N scalings in which no number comes near the ends of the range of doubles, the two answers agree in every cell up to a factor exp((4K+2) N / 2^52) (1+E)/(1-E), where E is the part of C136.", "quantifier": "all pairs of problems with the stated attributes, all non-negative seeds (positive for single calls), any number of calls in the first stage", "why_tests_cant": "Compares the limits of two chains of calls for every pair of problems, every seed and every stopping point of the first stage.", "anchors": ["src/IPF.h: IPF::solve, rScale, computeErrors", "src/NDArrayUtils.h: reduce, scale"]}
{"id": "C141", "title": "A change of the seed by a factor moves a bounded share of the people, whatever the marginals", "statement": "If every cell of the seed is multiplied by a factor between m and M, the cells of the table closest to the seed among those that meet the marginals change by at most pop * log(M/m) / 2 altogether (sum of absolute changes). This needs no condition on the marginals, which may overlap, nor on the seed, which may have zeros. Repeated calls of ipf in exact arithmetic get within any positive distance of this bound. A single call in doubles with disjoint marginals meets it up to the error bound of C136 for both seeds. If the seed is raised by a factor t > 1 in some cells only, the square of the change is at most pop * log t times the rise of the total of these cells: their total rises strictly unless the table stays as it is.", "quantifier": "all problems for which some table meets the marginals and vanishes where the seed does, all pairs of non-negative seeds with bounded ratio; for single calls, all disjoint problems and seeds under the conditions of C136", "why_tests_cant": "Compares the limits of two runs for every problem, every seed and every change of it; no finite set of runs bounds the worst case.", "anchors": ["src/IPF.h: IPF::solve, rScale, computeErrors", "src/NDArrayUtils.h: reduce, scale"]}
{"id": "C142", "title": "Attributes that no marginal connects are fitted independently of each other", "statement": "If the attributes divide into two groups such that no marginal names attributes of both, and the seed is the product of a seed for each group, then the table closest to the seed among those that meet the marginals is the product of the closest tables of the groups divided by the population. Repeated calls of ipf for all attributes together approach the product of what repeated calls for each group give, divided by the population. In particular an attribute with a marginal of its own, added to a problem with a weight for each of its categories, only divides every cell of the fitted table in proportion to its marginal; the weights have no effect as long as no category with people has weight zero. A single call in exact arithmetic with one such attribute added takes the same number of iterations, with the same convergence flag and error, and its table is exactly that division of the table without it. A single call for two groups takes at least as many iterations as the calls for each and converges only if they do; with equal numbers of iterations its table is exactly their product divided by the population.", "quantifier": "all pairs of consistent problems for the same positive population below 2^62, with any overlaps within each problem, all non-negative seeds of each for which some table meets its marginals; all cells", "why_tests_cant": "Relates the limits of three runs of ipf for every pair of problems and seeds; a test compares finitely many.", "anchors": ["src/IPF.h: IPF::solve, rScale, computeErrors", "src/NDArrayUtils.h: reduce, scale"]}
