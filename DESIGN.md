# Formal model of humanleague in Lean 4 — design

Source: `/repo` (C++ core in `src/`, pybind11 binding `module.cpp`, Rcpp binding `rcpp_api.cpp`).
The Lean project is `/verif/lean`. All model definitions cite the file and lines they model.

## Layers

| Lean modules | contents |
|---|---|
| `Verif/Base.lean` | outcome monad `Out` (`ok`, `thrown`, `ub`, `diverges`), the C++ `while`/`for` loop combinator |
| `Verif/Float.lean` | double arithmetic: finite rationals, infinities, NaN, parametric in the rounding function; `FP.exact` and IEEE binary64 |
| `Verif/Model/*.lean` | the model, one file per C++ file |
| `Verif/Spec.lean` | small independent vocabulary used by theorem statements (cells of a shape, projections, marginal sums, ...) |
| `Verif/Proof/*.lean` | helper lemmas |
| `Verif/Props/*.lean` | the property theorems and, next to each, a concrete case meeting its hypotheses |

## Modelling decisions

* **Outcomes.** A C++ computation returns `Out α`: a value, a thrown exception, undefined behaviour
  (out-of-bounds access, read of uninitialised storage, division by zero in integer arithmetic,
  out-of-range float-to-int cast, use after free), or divergence. UB is an outcome the theorems have to exclude,
  not something assumed away.
* **Loops.** C++ loops that do not obviously terminate (iterator objects, `while`) use `loop`, the least fixed
  point of the unfolding equation (Lean's `partial_fixpoint`); an infinite loop is the outcome `diverges` and
  divergence of the real code is provable. Counter loops with a fixed bound are folds or structural recursion.
* **Integers.** `int64_t`/`size_t` are unbounded `Int`/`Nat`, except where wrap-around is the subject:
  Sobol (`BitVec 32`), the uint32 conversions of `skips` and `dim`, `int64_t` overflow in the solvers (C83) and the size of
  the table in `size_t` (C84).
* **Doubles.** `Fl` = finite rational | +inf | -inf | NaN; `+0` and `-0` are identified. Every operation rounds its exact result
  with `fp.rnd`. Theorems hold for every `fp`, or for every `fp` with stated accuracy (`FP.Good`, met by
  `FP.exact` and by `FP.ieee`), or are about exact arithmetic (`FP.exact`) when they are mathematical identities that rounding
  breaks. `sqrt`, `exp`, `log`, `lgamma`, `tgamma` are parameters.
* **Pointers.** `MappedIndex`/`FixedIndex` hold pointers into the main index vector; they are modelled as lists of
  positions into that vector, which is passed explicitly.
* **Mutation.** Functions that mutate through references return the new value.

## Plan per property

C01 `Index` as an odometer state machine; loop lemma: the loop is a fold over `cells` in lexicographic order.
C02 same for `TransposedIndex`; `convertArray` read back at every logical index.
C03 `computeOffsets`/`offset` arithmetic; injectivity and surjectivity onto `[0,storage)`; read/write laws.
C04, C05 `reduce`: fold over cells, equality with filtered sums.
C06 `slice` through `FixedIndex`.
C07, C08 `listify`/`flatten` with a bounds-checked table; C08 is false for negative counts: witness proved.
C09–C12, C16 Sobol in `BitVec 32` with the full tables of `SobolData.h`; invariant of `sobol_gen`; triangularity of direction
numbers from the table (kernel-checked over the whole finite table) plus the recurrence by induction.
C13 exhaustion; the Python binding catches the wrong exception class: recorded as a finding.
C14, C15 `nlopt_sobol_skip` with 32-bit wrap-around: exact count for `n ≤ 2^31`, divergence above (finding), `n ≤ 1` off the documented value.
C17 narrowing of `dim` (finding for `dim ≥ 2^32`).
C18 stream semantics of `operator()`, stale buffer after `reset` (finding).
C19, C20 constructor of `Microsynthesis`: iff characterisation.
C21–C28 `QIS`: invariants over the population loop; tree-structured convergence by an invariant on remaining marginals.
C24 and C28 in rounded arithmetic (`Proof/RelErr`, `Proof/QISRound`): a relation `Rel k x y` (agreement up to k roundings) is carried through the product, the sum, the scaling and the chi-squared sum; results in a small absolute range are handled by `RelA`.
C29–C40 `IPF`: refinement of the array code to a function-level scaling step; algebra in exact arithmetic; a bound on the deviation of the exact sums in binary64 (`C29_conv_ieee`); divergence for full-dimensional marginals (finding); NaN convergence (finding).
C41–C44 `QISI`.
C45–C51 `Integerise`: largest-remainder loop; optimality by exchange argument; truncation of the total (finding).
C52, C53 `StatFuncs` decision logic with transcendental functions as parameters.
C54, C55 small heap model of numpy buffers (strides, ownership): layout finding, dangling-marginal finding.
C56 R translation layer.
C57, C58 `DDWR.h` samplers (the random draw is an arbitrary function). C59 `pick` under rounding. C60 NDArray ownership state machine. C61 `Log.h` formatting.
C62 R calls with lists that need not form a problem: case analysis over what the translation layer reads; the unsafe cases are witnesses.
C63, C64 direction numbers as polynomials over GF(2): each coordinate's generating matrix is the matrix of Laurent expansions of
`x^i / p(x)`; joint stratification is linear independence, which follows from the irreducibility and distinctness of the table's
polynomials (kernel-checked over the whole table) and the Chinese remainder argument.
C65 series and continued fraction of `gamain` against the integral of the density: closed forms by induction, remainder bounds by integration by parts. In binary64: relative errors of the partial sums, and of numerators and denominators through a potential that the recurrence does not increase (`FracRound`, `FracLoop`); the stopping criterion is met because successive convergents come within 1e-16. Disagreement: tails below 1e-17 are reported as exactly 0 with the flag set (`C65_small_is_zero`).
C66 argument checks of the Python bindings. C67, C68 R's `sobolSequence` and `flatten`, by reduction to C09/C14 and C07.
C69, C70 the sweeps over real-valued tables: every scaling step lowers the relative entropy of any solution by at least the squared
deviation it repairs (a Pinsker-type inequality), which bounds the number of sweeps; the limit by compactness; optimality by the
Pythagorean identity for tables of the form seed times factors. C71 from the uniqueness of that optimum.
C91: from C63 by the classical argument: a box at the origin is cut into dyadic boxes, coordinate by coordinate, with a remainder
of at most 2^t points (`block_bound`); the first N positions are cut into aligned blocks by the binary digits of N (`segment`).
C88: a bijection between the cells of two tables, with a bijection between the cells of corresponding marginals that commutes with
projection, commutes with scaling to a marginal, hence with a sweep, hence with the whole run; permuting categories, transposing
the table and transposing marginals are such bijections (`Proof/Relabel.lean`, `Proof/RelabelOK.lean`).
C89: scaling to a marginal is homogeneous in the marginal and of degree zero in the table, so tables and errors of all iterations
are multiplied by the factor; the number of iterations differs because the tolerance is absolute (`C89_negation_iterations`).
C35 in binary64: rounding commutes with powers of two away from the subnormal and overflow ranges, so the sums of the seed scale,
the quotients scale inversely and the table after the first marginal is identical (`C35_power_of_two`).
C90: `qisi` uses the seed only in fits to what the individuals leave of the marginals, and each of these is unchanged (`qisi_congr`).
C72 sums of whole numbers are exact, so every scaling factor is one; `qisi` then takes every individual from a cell that still has
one, so it never refits and uses up the table. C73 the fit reads the marginals only through their conversion to double.
C74 an invariant of the loop of `integeriseMarginalDistribution` on pairs of entries that only uses that rounding is monotone.
C46, C50, C76 in rounded arithmetic: the loop adds one at most once to each entry, to those with the largest remainders; the rounding
errors of the sum, the shares and the products together stay below `1/(n+2)`.
C75 false: a 3 x 3 table run through `integerise` in the kernel. C76 from C43.

C79, C80: `invCumNorm` and `Cholesky` with the functions of the mathematics library as parameters: case analysis of the tails;
at `±DBL_MAX` the factor `exp(z*z/2)` overflows, so the refinement gives NaN; symmetry by pushing the sign through each operation.
C81: folds over the cells; `max` is word for word `min` (finding).
C82: the division by the sizes in `computeOffsets` and the read of `sizes[0]` are outcomes of the model; every such array reaches one of them (finding).
C83: a second model of the constructor and the population loops in which each 64-bit sum, increment and decrement is checked; the two agree because a run is only accepted if its totals fit, and after k individuals the sum over any set of cells of a marginal lies between -k and its total. Totals that do not fit overflow (finding).
C84: the steps of `qis` that create arrays, with the number of cells computed modulo 2^64 and allocations that can fail (`Model/SizeT.lean`); equal to the main model below 2^64 cells, undefined at multiples of 2^64 (finding); otherwise too small a table is allocated, every access stays inside it and different cells share an entry (`C84_wrapped`).
C85: the invariant that the marginals left agree on what they share is kept by taking an individual out of all of them; a cell of positive weight of the earlier marginal that holds the shared dimensions gives one of the next (`compatible_decomp`). The order matters (finding).
C86: the code under `USE_STATE_SAMPLING`. Invariant: no state is negative, and the state is zero or NaN wherever a marginal left is zero, because the factor after/(after + 1) is then 0 and a product keeps its zeros; a draw takes neither, so no marginal becomes negative. In exact arithmetic the state is the product of the marginals left (`shrunk_exact`), so a failed draw means no cell is left (`C86_stuck`), which a decomposable problem excludes. In binary64 (`Props/QISStateRounded.lean`) the state agrees with that product up to two roundings for each individual placed and marginal, as long as products and sums stay in the normal range; so it is zero only where the product is, and every sum a draw makes picks a positive part. A product that overflows in every cell leaves nothing to draw (`C86_negation_overflow`). If a marginal names every dimension the `FixedIndex` has no free dimension and its loop never ends; if one names a dimension twice the index writes past its array (finding). The statistics (`C86_chiSq`) are those of the table of counts against the independence table, by the same lemmas as C28; in binary64 (`C86_expected_rounded`, `C86_chiSq_rounded`) with the rounding bounds of C24 and C28.
C87: the generators at the level of memory: blocks of words that are allocated or freed and written or not, pointers as block numbers, `malloc` failing as an arbitrary function says, `free` of a freed block and any bad access distinct outcomes. Refinement: each generator owns four blocks, disjoint from all others, holding exactly the value-level generator of `Model/Sobol.lean`; every operation preserves this (separation of footprints), so a program sees what it would see with values, and exactly the owned blocks are allocated. Partial because a failed allocation goes unnoticed: the theorem says that this, when drawn from, is the only undefined outcome.
C93: after each scaling a cell is a product of one factor for each marginal so far, with one rounding for each, and the factors are proportional to the marginal values up to the roundings of one sum and one division (`UInv`, `unit_step`); the constants of proportionality are followed separately, so that the bound grows linearly and not by doubling (`unit_sweep`). The negation is evaluated by the kernel: the table after one sweep is a fixed point of the binary64 sweep (`stuck_fixed`).

C94: scaling a cell is one multiplication by a factor that depends only on the marginal's own dimensions, however inaccurate that factor is; so after `n` sweeps a cell is the seed times one number per marginal times at most `n |Q|` factors `1 + e`, `|e| ≤ 2^-53`. Putting these in the seed gives a seed `b'` of which the table is exactly a product form, and the Pythagorean identity of C69 applies to `b'`. The side condition (RegularSpec.lean) is needed: C31 has a run in which a factor overflows and a zero cell becomes NaN.

C95: with two disjoint marginals the table is a matrix (`glue`, `mat`). After the rows have been scaled, the sums of the columns, divided by what they should be, are weighted means of the factors of the previous scaling; the weights of two columns differ by at most a factor `R`, so the means are closer together than the factors, by `(R-1)/(R+1)` (`contract`, after Franklin and Lorenz). Cross-product ratios do not change in exact arithmetic, so this holds at every sweep (`HInv.step`); the spread is at most `R` after the first sweep, whatever the marginals (`first_sweep`). In double precision (`C95_double`) the state after each scaling is compared with the sums it actually has: cross-product ratios grow by four roundings per scaling, the spread by `4(f+2)` roundings after being contracted (`HInv.roundStep`), and the recursion `e' = λ e + ε` leaves `ε(R+2)/2`; the seed is bounded away from the ends of the range so that nothing underflows (`GS.range`).

C96: each scaling lowers the relative entropy of `t` by exactly the divergence of the marginal from the sums it replaces (Pythagoras, `sweep_gain`); Pinsker's inequality bounds that from below by the square of the summed deviation, and with two marginals the summed deviation never grows from one scaling to the next (`step_dev`), so the gains of all scalings are at least the last one (`two_rate`). In exact arithmetic.

C97: false (the Alabama paradox of apportionment by largest remainders): `C97_negation` evaluates both runs for the proportions 7 : 7 : 2, in every arithmetic that is exact on small dyadic numbers, so in double precision: three people are 1, 1, 1 and four are 2, 2, 0. From C46 a frequency drops by at most one (`C97_drop_partial`), and from C47 two groups are safe (`C97_two`, exact arithmetic).

C98: the limit is the only table of least relative entropy among those that meet the marginals and vanish with the seed (`C70_limit`); the relative entropies to two seeds that differ by such factors differ by the same constant for all of these tables (`entropy_factors`), so the two limits are the same table. `C98_redundant` uses that sums of sums are sums (`marginalSum_again`).

C99: a table for two marginals is a matrix whose rows and columns are their categories; the cell is determined by the two (`cell_unique`). A solution in whole numbers is a matching of the people of the first marginal with those of the second, so Hall's marriage theorem (Mathlib) gives one from the condition on sets of categories (`transport`, `whole_table`); the condition is necessary because the people of a set of categories of the first are among those of the categories of the second they reach (`reach_le`), which also shows that a converged table of ipf, which keeps the zeros of the seed, would contradict a gap. `reach` (FeasibleSpec) is the set of reachable categories.
C100 is false of the code. ipf makes at most 1000 iterations and `recomputeIPF` does not look at whether the fit converged, so qisi draws from whatever table it was left with. Witness (`C100_solvable_false`, in exact arithmetic and in double precision, for every number of skips): 16384 people in each row and column of a 2x2 table, seed zero in cell [0,0]. The only solution puts nobody in [1,1], but there ipf converges like 1/n and after 1000 iterations leaves about 8.19 people in that cell (`slow_fit`); a Sobol point among the first 8192 with both coordinates close to 1 (C63) then draws [1,1], and the population can no longer meet the marginals with [0,0] empty (C41, C43). The rounded tables are followed with relative error bounds (`SlowTable`, `slow_tables`). The part that holds (`C100_solvable_partial`, exact arithmetic): marginals without common dimensions and a seed that is a product of non-negative factors, one for each marginal, zeros allowed; then one sweep gives the product of the marginals (`qsweep_factors`), for the problem and for every remainder of it, so every fit is exact and C44 applies.

C101 to C103 (`Props/IPFDecomp.lean`, `Props/IPFDecompDouble.lean`) give the result of `ipf` and `qisi` for a constant seed and marginals with the running intersection property (`Decomposable` in `DecompSpec.lean`, the same specification as for qis). The closed form is `chainAt`, the chain rule. The proof keeps the invariant `Swept`: after scaling to the first marginals the table depends only on the dimensions they name, meets all of them, and is the chain-rule product spread evenly over the rest. For C102 the remaining problem after every draw has the same property, so every refit is exact. For C103 the rounded table is compared with the exact one by the relative-error calculus of `Proof/RelErr.lean`: scaling doubles the number of roundings and adds f + 2.

C104 is false of the code, in exact and in IEEE arithmetic (`Props/IntegeriseStray.lean`): the draws go on from a fit to what is left, so a cell that holds exactly 1 can be drawn, refitted to a positive number and drawn again. The run of a 3 x 3 array of binary fractions is followed step by step (`Proof/QISIScript.lean`: a run whose draws and working tables are given). The same run shows that C75 fails in double precision too.

C105 (`Props/QISAdded.lean`, `AttachedSpec.lean`): sampling the first marginals reads and writes only their dimensions and the coordinates of the Sobol point that belong to them (`sampleAll_frame`), and a dimension that has a value keeps it, so the leading coordinates of each individual are drawn as for the smaller problem (`draw_added`). `Proof/QISScript.lean` turns a list of known draws into a run. For the converse a compatible cell with a positive count is found along the one shared dimension (`draw_attached`).

C106 (`Props/QISNew.lean`, `Proof/QISNew.lean`): the last position of such a marginal that is drawn
has a new dimension, and by then all other coordinates of the entry are fixed, so the weight picked from is a single entry of what is
left of the marginal; a pick from non-negative weights takes a positive one (C59), so the marginal never goes below zero; the counts
sum to the population on both sides, so they agree. Marginals all of whose dimensions are named before are never drawn from, and
they are the only ones that can be missed (the example of C24 is one).

C107 (`PadSpec.lean`, `Props/QISPad.lean`, `Proof/QISPad.lean`, `Proof/QISPadRun.lean`): a run of zero weights in the table
that is picked from is never the one picked, since the cumulative weight does not change over it, so a pick from the padded weights is
the placed pick from the others; this goes up through the recursion over dimensions, the sampling of all marginals and the draws, by
induction over the run. It needs the weights to be non-negative, which C106 gives for the marginals that are drawn from. Chi-square,
its p-value do differ (the degeneracy is not compared): an expected value of zero makes chi-square not a number (C28), and the shape enters the degrees of freedom.

C108 (`PadSpec.lean`, `Props/IPFPad.lean`, `Proof/IPFPad.lean`): the row-major order of the padded table, restricted to the old cells,
is the order of the old table, and adding a zero to a rounded sum does not change it, so every sum the code forms is the same; a new cell
stays zero because it is either in a slice of sum zero or multiplied by a factor that, in a run ending in numbers, is a number. The
running maximum of the errors sees extra zeros only. If a factor overflows, a new cell becomes zero times infinity, that is NaN, where the old
table has infinities; hence the condition on the result.

C109 (`Model/HeapData.lean`, `HeapDataSpec.lean`, `Props/HeapData.lean`, `Proof/HeapData.lean`): a second memory model, with the contents of the
blocks, in which `copy`, `assign`, reads and writes go through pointers, and a specification without memory in which an owning array is a value
of `Model/NDArray.lean`. The proof is a simulation: every block is tagged with the one array or the one pointer of the caller that it belongs to,
an operation touches only blocks with its own tag, so all others stand. This is also what justifies the rest of the model in taking arrays to be
values. Not covered: allocations that fail (C60 has them), `copy` of an array onto itself (outside what `std::copy` allows), overlapping views
made from pointers into the middle of a block.

C110 (`Model/UnitTest.lean`, `UnitTestSpec.lean`, `Props/UnitTest.lean`): the logger, the macros and `run` over any sequence of checks with any side
effects, compared with evaluating each condition once. `C110_negation`: `CHECK_EQUAL` evaluates its operands again when it fails, to print them;
with operands like `a[++index]`, which the tests of slices and indices are full of, one wrong element gives two or more failures, and the message
shows values that were not the ones compared. Hence `C110_errors_partial` asks for operands without side effects; that there are no failures is
reported correctly in any case. `C110_tolerance_negation`: `withinTolerance(0, 0, tol)` is false for every tolerance.

C111 (`Proof/QISIPad.lean`, `Proof/QISIPadRun.lean`, `Props/QISIPad.lean`): C107 and C108 together. The specification of `qisi` (`Placed`, `FitDone`) is
followed draw by draw: a category of probability zero is never picked because a remaining total of at least one is in the old categories, and by C108 the fits
are padded fits. Conversely a run on the padded problem gives one on the original. That the fits consist of numbers is a hypothesis, met automatically in
exact arithmetic (`C111_exact`). The chi-squared statistic is not part of it: it is NaN as soon as one expected value is zero (C28).

C112 (`LargestSpec.lean`, `Proof/Fract.lean`, `Proof/IntegeriseLargest.lean`, `Proof/LargestRound.lean`, `Props/IntegeriseLargest.lean`): the code keeps the
remainders in a vector and takes the largest off one by one; the specification `largest` counts for each entry how many are served before it. The loop invariant
is that those served so far are the entries with fewer than `k` others ahead. In doubles the code subtracts the integer part of a computed share, which is exact,
so that the order of the remainders is that of the real remainders of the computed shares (`Fine`, proved of binary64 in `fine_ieee`), and the shares sum to less
than one away from the population, so that the number to be served is between 0 and the number of entries with a remainder.

C113 (`Proof/LargestPad.lean`, `Proof/IntegerisePad.lean`, `Proof/IntegerisePad1.lean`, `Props/IntegerisePad.lean`): for vectors from C112, since an entry whose
remainder is zero is never served; for arrays from C111, since the rounded sums of the padded array are the padded rounded sums. The `rmse` is not part of it: it
is divided by the number of cells.

C114 (`ReorderSpec.lean`, `Proof/LargestPerm.lean`, `Props/IntegeriseScale.lean`): the unit because the shares x / sum are the same (in doubles the sum is scaled
exactly as in C35 for ipf); the order from C112, since for an entry with its own remainder the number of entries served before it does not depend on the order.
`C114_ties` shows that the condition is needed: among equal remainders the first is served.

C115 (`QISRuleSpec.lean`, `Proof/QISFollow.lean`, `Proof/QISRule.lean`, `Props/QISRule.lean`): C77 says that the individuals of a run satisfy the rule; here the converse,
so that the rule is a second, closed description of `qis`.  `pick_int_iff` characterises `pick` on integer weights, `sampleAll_of` follows the code along an individual that
satisfies the rule, `draw_iff` puts the two together, and `qis_script` runs them.  The rule mentions nothing of the model: the points are the closed form of C09.

C116 (`Props/QISRedundant.lean`): from C115.  The rule for the problem with the marginal has the same clauses as the rule without it, because the attributes known at each
draw are the same.  So a marginal that shares two or more attributes with earlier ones is not used by `qis` except in the final comparison.

C117 (`QISIRuleSpec.lean`, `Props/QISIRule.lean`): the converse of C78, so that the rule is a second description of `qisi`.  `drawn_of_exact` follows the code along an individual
that satisfies the rule, `placed_of_rule` along the working tables, and `qisi_of_placed` runs them.  `Fit` is what `ipf` returns (see C32).

C118 (`PipelineSpec.lean`, `Props/Pipeline.lean`): composition of C45, C23, C22, C21 and C07.  `tally` counts the rows of a table by some of its columns.  The bounds are those of C45 and C23.

C119 (`Props/PipelineIPF.lean`, `Props/PipelineDouble.lean`): a converged fit has sums within 1e-8 of the marginals, which are whole numbers, so the tests of `integerise` pass (the sum of up to 10^4
such entries is within 1e-4) and the marginals it rounds to are those of the marginals; the rest is C41, C43 and C44.  That `integerise` may raise is C51 and C75.

C120 (`Props/DDWREdit.lean`): false of the code, whose `operator[]` does not update the total.  `C120_negation_lowered`: after any edit that takes individuals away, the largest random number makes the
sampler read past the end of its vector.  `C120_negation_raised`: after any edit that adds individuals the sampler is empty before they are drawn.  `C120_balanced_partial`: it is true of edits that
leave the total alone.

C121 (`CursorSpec.lean`, `Props/IndexCursor.lean`): by induction over the history; one step is the successor in the enumeration of the cells, with the first after the last.  `C121_negation_all_fixed`
is the exception: no free dimension, no end.  This is behind the endless loops of C37 and C86.

C122 (`Props/CallerArrays.lean`): the member `m_marginals` is a reference to the caller's list, so the model's `micro.marginals` after the call is what the caller sees.  For `ipf` an invariant of its loop;
for `qis` and `qisi` the description of the final state behind C22 and C41.  Python's `qis` and `qisi` work on copies (`toNDArray`).  Not covered: what is left when a call ends in an exception.

C123 (`Model/Refusal.lean`, `RefusalSpec.lean`, `Props/Refusal.lean`): the constructor is modelled a second time, keeping the operands of its eight `throw` expressions; `C123_agrees` proves that forgetting them gives `Micro.new`.
`Truthful` says what each message claims, in terms of the caller's lists.  Disagreement (`C123_negation_index`): in the message about partial sums the number after "index" is the rank of the place among those with that dimension, not the number of a marginal as in the other messages, so it can blame the wrong one.
Messages for `double` marginals: C130.

C124 (`StrataSpec.lean`, `Proof/IPFStrata.lean`, `Props/IPFStrata.lean`): the cells of a region are consecutive in row-major order, so each sum of the whole table is, operation for operation, a sum of the region's table; the theorems hold in any arithmetic.
Convergence of the whole is convergence of all parts at once (`convAt_strat`).  Disagreement (`C124_negation_refused`): the whole can be accepted where each part is refused.

C125 (`Props/IPFRedundant.lean`): scaling to the same marginal twice is scaling once (`qscaled_twice`), also for signed seeds; scaling to a coarser marginal first is undone by the finer one (`qscaled_coarser`).
`conv` can differ in the second part, because the implied marginal is checked as well and its error can be a sum of errors of the finer one; the theorem therefore gives an inequality between the numbers of iterations.

C126 (`AlikeSpec.lean`, `Props/IPFAlike.lean`): the cells summed for the one category are those summed for the other with one entry of the index changed, in the same order (`filter_alike`), so the sums are the same operation for operation.  No finiteness is assumed.

C127 (`SplitSpec.lean`, `Proof/IPFSplit.lean`, `Props/IPFSplit.lean`): `sum_split` sums over the parts of all cells dimension by dimension; each scaling commutes with sharing out (`qscaled_split`).  Exact arithmetic; the tolerance is absolute, so the split problem, whose errors are parts of the old ones, may stop earlier.

C128 (`Proof/IntegeriseRmse.lean`, `Props/IntegeriseRmse.lean`): the loop over the result is a fold over all cells (`sqErr_eq`); in exact arithmetic the fold is the sum of squares, in rounded arithmetic each term is within four roundings and the sum within one per cell (`meanSq_bound`, with the lemmas for the chi-squared statistic). The relation to `qisi` is `array_eq`.

C129 (`Model/Messages.lean`, `MessageSpec.lean`, `Props/Messages.lean`): the remaining messages with numbers in them, as data (`Complaint`) with their texts; `C129_agrees` relates the checks to those of the other models. `MessageSpec` reads decimal numbers the way a person does; the texts are compared with it. Doubles are printed with six decimals, rounded to nearest with ties to even (what `std::to_string` does through printf `%f`).  Disagreements: `C129_negation_reduce` (a reduction along dimension 2 of a two-dimensional array is refused with "reduce dimension 2 greater than array dimension 2"), `C129_negation_R` (of three marginals given in R the first is called "marginal 2").

C130 (`Model/RefusalFl.lean`, `RefusalFlSpec.lean`, `Props/RefusalFl.lean`): as C123 for `double` marginals, in any arithmetic; the messages about shapes are those of C123 for the shapes alone. `TruthfulFl` says what each message claims; `C130_exact` restates it with exact sums. Disagreements: sums that differ by 1e-7 are refused with a message that shows the same numbers twice (`C130_negation_same`), and a small negative entry is reported as -0.000000 (`C130_negation_zero`).

C131 (`Props/IPFPartway.lean`): every iteration ends with scaling to the last marginal; scaling meets each entry of it or leaves zeros (`C131_last`, any seed). The rest follows with the entropy calculus of C70 (`sweep_gain`). In double precision (`NoTinySpec.lean`, `Proof/IPFPartwayRound.lean`, `Props/IPFPartwayDouble.lean`) one scaling is exact up to `f + 2` roundings as long as nothing underflows, which `C131_double` carries through the run. `C131_blocked`: a seed of zeros shows that the total can be short without a table that meets the marginals.

C132 (`Props/IPFConditional.lean`): the adjusted cell of `rScale` depends only on the seed's cells with the same entries along the first marginal's dimensions (`scaled_local`), so there a factor per category acts like a constant factor, which C35 has settled; the tables after the first adjustment are then equal and the rest of the run is the same computation (`ipf_run_first`). For qisi every refit starts from the seed and the same lists of dimensions, so C90's congruence (`qisi_congr`) applies. C132_second: a factor on the second marginal's categories turns a one-iteration run into a longer one.

C133 (`Props/IPFPositive.lean`, conditions in `ModestSpec.lean`): every table of the run is the seed times one factor per marginal, and each factor is its marginal up to a constant and a factor `hi/lo` (`Box` in `Proof/IPFBox.lean`), because after a scaling the factor is the marginal divided by a sum of the seed weighted by the other factors. For disjoint marginals this bounds every cell by the independence table. In double precision the same invariant holds with the seed's bounds widened by one rounding per scaling (`dinv_step`), which keeps every number of the run in range and discharges the hypotheses of C94, C131 and C29 (`C133_no_underflow`, `C133_closest`, `C133_conv`).

C134 (`Props/IPFRateMany.lean`): the factors of the marginals are followed scaling by scaling (`Proof/IPFRateMany.lean`). A new factor is its marginal divided by a weighted mean of the other factors' product, and by the inequality of Birkhoff (`mean_ratio` in `Proof/Birkhoff.lean`, proved here from scratch for finite sums) the ratio of two weighted means, for weights whose cross ratios are at most `ρ²`, spreads at most `(ρ - 1)/(ρ + 1)` as much as the function itself on the logarithmic scale. With `K - 1` other factors the spread of the last change is multiplied by `(K - 1)(ρ - 1)/(ρ + 1)` every `K - 1` scalings. The error reported after an iteration is bounded by the spread of the changes since each marginal was last met.

C135 (`Props/IPFConverges.lean`): the argument of C134 with an error `e^ε` in every cell after every scaling (`NearRun` in `Proof/IPFRateDouble.lean`): the spread of the factors of a scaling is at most the contracted spread of the scalings before it plus `2 K ε`, so it ends below `2 K ε / (1 - lam)`. That a run in double precision is such a run, with `ε` for `f + 2` roundings and cross-product ratios that grow by one rounding per scaling, is read off the invariant of C133 (`Proof/IPFRateDoubleRun.lean`). For `C135_odds` the cross-product ratios along the run are bounded by those of the seed instead of its spread (`Proof/IPFOddsRun.lean`): a scaling leaves them as they are, its errors change them by at most `e^{4 ε}`. C136 to C139 then hold in double precision under the same condition (`C136_odds`, `C137_odds`, `C138_odds`, `C139_odds`).

C136 (`ClosestSpec.lean`, `Props/IPFAccuracy.lean`): two tables that are the same seed times factors for the marginals, and both nearly meet the marginals, are near each other: the spread of the ratio of their factors is at most `lam` times itself plus the errors (`static_ratio`, `static_near` in `Proof/IPFAccuracy.lean`; the same averaging lemma as in C134, applied once instead of along a run). The second table is the exact run after `n` sweeps, and `n` goes to infinity (`closest_near` in `Proof/IPFAccuracyLimit.lean`, with the limit of C70). For doubles the first table is the run of C135, whose errors add up to one rounding budget per scaling.

C137 (`SensitivitySpec.lean`, `Props/IPFSensitivity.lean`): the table of the changed problem is the changed seed times factors for the marginals, so the original seed times factors up to `β`, and it meets the original marginals up to `δ`; `closest_near_form` (`Proof/IPFAccuracyLimit.lean`, of which C136 is the case of the same problem) then bounds its distance from the closest table of the original problem (`sweep_near`), and the limit of the sweeps gives the same for the two closest tables (`closest_closest` in `Proof/IPFSensitivity.lean`). Doubles: with C136 on both sides.

C138 (`SensitivitySpec.lean`, `Props/IPFRaise.lean`): each of the two closest tables is no further from its seed than the other table is; adding the two inequalities leaves the sum over the cells of the change of the table times the change of the logarithm of the seed (`C138_law`). With C70 for repeated calls and C136 for one call.

C139 (`Props/IPFRaiseBound.lean`): move both closest tables a small step towards each other; neither gets closer to its seed. Outside S the convexity of x log x makes the two steps cancel, inside S its tangent leaves the logarithms of the two tables, and the log-sum inequality takes them to the totals (`C139_closest`). With C70 for repeated calls and C136 for one call.

C140 (`Props/IPFStages.lean`): each scaling of the first stage multiplies the seed by positive factors that depend on the attributes of one marginal, and so of one marginal of the second stage; such factors change the relative entropy of all tables with the required sums by the same amount (C98). They also leave the cross-product ratios as they are, so that C136 applies to both seeds. With C40 for the empty category. Doubles (`Props/IPFStagesDouble.lean`): by C94 the table after the first stage is factors times a seed within `N` roundings of the original, so its closest table is that of this second seed, which is near that of the original by C137; then `C136_odds` on both sides.

C141 (`Props/IPFMoved.lean`): by the Pythagorean identity for the two closest tables, the sum of their relative entropies to each other is the sum over the cells of the change of the table times the change of the logarithm of the seed; the totals being the same, the middle of the range of the logarithms may be subtracted. From below, (a - c)(log a - log c) is at least 2 (a - c)^2 / (a + c), and the Cauchy-Schwarz inequality turns this into the square of the total change divided by pop. With C70 for repeated calls and C136 for single calls in doubles.

C142 (`Props/IPFGroups.lean`): `beside` puts the marginals of two problems side by side, with the attributes of the second after those of the first, and `crossed` multiplies tables. The relative entropy of a table to a product of seeds is that of the table to the product of its own sums over each group, plus those of these sums to the seeds, minus a constant: the first is at least zero by Gibbs' inequality and the others are least at the closest tables of the groups. With C70 for repeated calls in exact arithmetic. Single calls (`Props/IPFGroupsCall.lean`): by induction over the sweeps, the table after n > 0 sweeps over all marginals is the product of the tables after n sweeps over those of each group, divided by the population, and the largest error is the larger of the two. Not covered: double precision.

C92, C80 (accuracy): the normal distribution is defined as an integral of the density (`NormalSpec.lean`), and the library is any whose functions are right to a part in `10^14` (`Accurate`, a hypothesis of these theorems; `accurate_exists` shows that it can be met). The rational approximations: the sign of the derivative of `cdf(approximation) - p`, times a positive function, is that of a polynomial with integer coefficients, whose sign on a short interval is certified by the coefficients of the polynomial of the interval (`PolyCert.lean`, checked in the kernel); so the error is small on the whole range because it is at one point (`central_near`, `tail_near`). One step of Halley's method then cubes it (`halley_step`), and the floating-point evaluation is followed operation by operation (`NearCalc.lean`). C80 follows with bounds on the variates of 32-bit numbers (`NormalPair.lean`).

C77: `recursive_sample` by induction on the dimensions still free gives the weights of each draw as sums over the cells
that agree with the later positions (`rec_draw`); the bijection between a slice and the cells with the fixed coordinates
turns them into sums over the marginal (`sample_draw`); induction on the list of marginals (`sampleAll_draw`). The level
the running total has to pass is a product rounded once, exact for totals up to 2^21. C78: the same induction for
`getIndex`, and induction on the run (`Placed`) for the sequence of working tables.

## What each theorem file says about correspondence

Statements use only: the entry points of the model (`IPF.run`, `QIS.new`/`solve`, `py*`, `R.*`, ...), the vocabulary files
`Spec`, `ProblemSpec`, `QISSpec`, `SobolSpec`, `QISISpec`, `IntegeriseSpec`, `HeapSpec`, `PySpec`, `RSpec`, `EntropySpec`, `IntSpec`, `DecompSpec`, `RelabelSpec`, and Mathlib.
The lemmas in `Proof` do not appear in statements.

## Where the code and the English property disagree (findings)

Each is a theorem, with a concrete witness or for a whole class of inputs.

| property | finding | theorem |
|---|---|---|
| C06 | a negative slice index is used unchecked | `C06_slice_negative_index_unsafe` |
| C08, C68 | `flatten` with a negative count writes out of bounds (Python, R) | `C08_flatten_negative_unsafe`, `C68_negative_unsafe` |
| C13 | Python: exhaustion of the Sobol sequence raises IndexError, not StopIteration | `C13_python_not_stop_iteration` |
| C14 | skip 1 skips one point where none is documented | `C14_skip_one` |
| C15, C67 | skips above 2^31 (from R: negative) never return | `C15_skip_diverges`, `C67_negative_skip_never_returns` |
| C17 | Python: the dimension is reduced modulo 2^32 before the check | `C17_python_truncates` |
| C18 | reset in the middle of a point leaves old values in the stream | `C18_reset_stale` |
| C19 | float marginals with infinite total: undefined conversion | `C19_negation_infinite_total` |
| C24 | QIS expectation is NaN when every cell has a zero marginal | `C24_negation` |
| C26 | QIS never uses the first Sobol point | `C26_negation` |
| C27 | a QIS object cannot be solved twice | `C27_negation` |
| C28 | chi-squared is NaN and the p-value 1 when a marginal has a zero | `C28_negation` |
| C28 | the same for `qisi`, and also when the seed has a zero at any cell, whatever the marginals | `C28_negation_qisi`, `C28_negation_qisi_seed` |
| C24, C28 | in binary64 the expectation and chi-squared are NaN, and the p-value 1, when the product of positive marginals at a cell is 2^1025 or more | `C28_negation_overflow` |
| C31, C38 | IPF in binary64 can turn a zero or finite seed into NaN and report convergence | `C31_negation_ieee`, `C38_negation_finite_seed` |
| C33 | a seed with negative cells that meets the marginals is changed | `C33_negation_signed_seed` |
| C37 | IPF never returns when a marginal covers all dimensions or repeats one (of size two or more), and throws `std::length_error` when an index list is longer than the number of dimensions; all other accepted problems return | `C37_negation_covering`, `C37_negation_repeated`, `C37_negation_long`, `C37_outcomes` |
| C42 | skips has no effect in `qisi` | `C42_negation` |
| C45 | 1-d integerisation of 2^24+1 probabilities in binary64 sums to one too many | `C45_negation` |
| C47, C48, C74 | in binary64 the larger of two probabilities can get the smaller frequency | `C74_tight` |
| C49 | empty vector: out-of-bounds write; zero vector: NaN converted to an integer | `C49_negation_empty`, `C49_negation_zero` |
| C49 | negative entries are accepted, and the frequencies can then sum to more than the population (`integerise([-1, -1, 4], 1)` gives a total of 2) | `C49_negation_signed` |
| C68 | R's `flatten` with a name used for two dimensions drops a column | `C68_repeated_name` |
| C50 | one-argument integerise truncates the total it has just checked by rounding | `C50_negation`, `C50_negation_ieee` |
| C51 | the total is not preserved for large arrays; NaN entries are undefined behaviour | `C51_negation_total`, `C51_negation_nonfinite` |
| C52 | failure flag of the p-value dropped; degrees of freedom truncated to 32 bits; underflow gives 1 | `C52_negation_*` |
| C53 | `degeneracy` computes another quantity: (number of cells)! over the product of (count + 1)!, less than the documented value whenever there are at least as many individuals as cells; `qis`, `qisi` and state sampling report it | `C53_negation`, `C53_negation_less`, `C53_negation_qis`, `C53_negation_qisi`, `C53_negation_state` |
| C53 | the degeneracy reported is 0 or NaN once a cell holds 170 individuals or more (the gamma function of double precision overflows) | `C53_negation_overflow`, `C53_negation_overflow_qisi` |
| C54 | strides of numpy arrays are ignored | `C54_negation_fortran`, `C54_negation_reversed` |
| C55 | Python `ipf` reads converted marginals after they are freed | `C55_negation` |
| C57, C58 | samplers: totals wrap at 2^32; zero totals; limit 0; assignment | `C57_negation_wrap`, `C58_negation_*` |
| C59 | `pick` fails for totals near the ends of the double range | `C59_negation_small`, `C59_negation_infinite` |
| C60 | a failed allocation in `resize` leads to a double free | `C60_negation_bad_alloc` |
| C61 | an argument containing the placeholder is expanded again | `C61_negation_nested` |
| C75 | the result of multidimensional integerise is not the closest array (documented in R) | `C75_negation`, `C75_negation_double` |
| C104 | multidimensional integerise puts two individuals in a cell that holds exactly one | `C104_negation` |
| C79 | the ends 0 and 1 of `invCumNorm`, meant to be recovered, give NaN in binary64 | `C79_ends` |
| C80 | `Cholesky` with a zero input converts NaN to `uint32_t`; a NaN correlation is accepted | `C80_zero_ub`, `C80_construct` |
| C80 | `Cholesky` with inputs near the ends converts 2^32 to `uint32_t`: correlation 5/8, inputs (2^32-1, 2^32-1) | `C80_corner` |
| C81 | `max` of an array computes the minimum | `C81_negation_max`, `C81_negation_max_iff` |
| C82 | Any array with an empty dimension makes `flatten`, `integerise`, `ipf`, `qis`, `qisi` divide by zero; one without dimensions makes them read `sizes[0]` of an empty vector | `C82_negation_single`, `C82_negation_marginal`, `C82_negation_r` |
| C83 | marginals whose total is 2^63 or more are not rejected: the sum overflows (undefined) | `C83_negation` |
| C84 | `qis` dereferences a null pointer when the number of cells is a multiple of 2^64, e.g. 64 two-valued attributes | `C84_negation` |
| C85 | `qis` on marginals that fit together depends on their order: with the axes before the two-dimensional marginal it returns with conv false | `C85_negation_order` |
| C86 | compiled with `USE_STATE_SAMPLING`, `qis` never returns if a marginal names every dimension of the table (endless loop) or one dimension twice (write out of bounds) | `C86_negation`, `C86_negation_diverges` |
| C86 | compiled with `USE_STATE_SAMPLING`, `qis` raises "pick failed" on the first individual when the product of the marginals overflows, although every cell is free | `C86_negation_overflow` |
| C86 | compiled with `USE_STATE_SAMPLING`, `qis` reports NaN for chiSq and 1 for the p-value whenever a marginal entry is zero | `C86_negation_chiSq` |
| C87 | if an allocation fails while a `Sobol` generator is constructed or reset, nothing is raised and the next draw dereferences a null pointer | `C87_negation` |
| C89 | the tolerance of `ipf` is absolute: the same shares with a hundred times the population take another iteration and the table is not a hundred times the other | `C89_negation_iterations` |
| C93 | the tolerance of `ipf` is absolute: with 180 million people (rows 60 and 120 million, columns 20 and 160 million) and a seed of ones, double precision reaches a table that no longer changes, off by 1.5e-8; 1000 iterations, conv false | `C93_stuck` |
| C62, C68 | R: short index vectors, long seeds and short name lists are read beyond their end | `C62_negation_*`, `C68_too_few_names` |
| C97 | with one more individual a group can get fewer (Alabama paradox: 7 : 7 : 2 for three and four people) | `C97_negation` |
| C110 | a failed check is counted once but its message evaluates the expression again, so one fault can make two failures and a message about another element (TestSlice.cpp) | `C110_negation` |
| C110 | zero is not within any tolerance of zero in the self-test | `C110_tolerance_negation` |
| C120 | editing the frequencies of a sampler leaves its total: lowering one reads past the end, raising one leaves individuals that cannot be drawn | `C120_negation_lowered`, `C120_negation_raised` |
| C121 | an index with every dimension fixed never ends | `C121_negation_all_fixed` |
| C123 | the number after "index" in the message about partial sums is a rank, not the number of a marginal | `C123_negation_index` |
| C124 | `ipf` compares an attribute that several marginals have in common for all regions together only, so it accepts regions whose marginals contradict each other | `C124_negation_refused` |
| C129 | the message about a reduction along a dimension that does not exist says that 2 is greater than 2 | `C129_negation_reduce` |
| C129 | messages for R callers number the marginals from the end of the list, starting with 0 | `C129_negation_R` |
| C130 | marginals that differ by 1e-7 are refused with a message that shows the same numbers twice; a small negative entry is reported as -0.000000 | `C130_negation_same`, `C130_negation_zero` |

## Trusted base

* Lean 4.33.0's kernel and the Mathlib it was built with.
* Axioms. Every theorem named in `MANIFEST.json` was checked with `#print axioms`. `Heap.C60_negation_bad_alloc`,
  `Heap.C60_negation_bad_alloc_null`, `Heap.C60_moved_from`, `C61_step` and `C61_surplus` depend on `propext` only;
  `C03_array_forms` on `propext`, `Quot.sound`; all others on `propext`, `Classical.choice`, `Quot.sound`. No other axiom occurs:
  no `sorry`, no `native_decide`, no `bv_decide`. Table checks use `decide +kernel` over the complete table.
* The reading of the C++ recorded in the comments of `Verif/Model`, under these assumptions:
  * every double operation is rounded separately (no fused multiply-add, no extended precision);
  * `exp`, `log`, `erf`, `lgamma`, `tgamma`, `sqrt` are parameters, with hypotheses about them stated where needed;
  * +0 and -0 are identified;
  * integers are unbounded in the main model of the solvers; `Model/Int64.lean` repeats them with checked 64-bit arithmetic and C83 shows
    that the outcomes agree. Offsets and sizes of arrays are unbounded too, and allocations
    succeed; `Model/SizeT.lean` and C84 treat the size of the table in `size_t` and failing allocations. 32-bit `int` arithmetic in
    `integerise` and the wrap-around on conversion to `uint32_t` are in the main model;
  * `NDEBUG` is defined (asserts are modelled only where a theorem name says `debug`), `USE_STATE_SAMPLING` and `VERBOSE` are not (`Verif/Model/QISState.lean`, C86, models the code under `USE_STATE_SAMPLING` on its own).
* `partial_fixpoint` loops are equal to their unfolding by a theorem Lean generates; no axiom is involved.

## What is modelled

| file | modelled | not modelled |
|---|---|---|
| Index.h/.cpp | Index, TransposedIndex, MappedIndex, FixedIndex | trivial accessors are inlined |
| NDArray.h | construction, resize, assign, offsets, access, ownership (Heap.lean) | |
| NDArrayUtils.h | sum, min, max, diff, isZero, marginalProduct, reduce (both), slice, listify | print |
| Microsynthesis.h | constructor with all checks, mappings, remaining accessors inlined | |
| QIS.cpp | constructor, solve_m, sample, recursive_sample, pick, state values, statistics; solve_p and its helpers (compiled out) in `QISState.lean` | |
| QISI.cpp | all | |
| IPF.h | all | |
| Integerise.cpp | all | |
| StatFuncs.cpp | all: chiSq, gamain, pValue, dof, degeneracy, cumNorm, invCumNorm, Cholesky | the constant `atan(1.0)` is a parameter |
| Sobol.cpp, SobolImpl.cpp, SobolData.h | all, with the complete tables; blocks of memory, `malloc` (which may fail) and `free` in `SobolMem.lean` | |
| DDWR.h | the three samplers | the random engine |
| Log.h | operator%, to_string for integers and vectors | |
| module.cpp | qis, qisi, ipf, integerise, flatten, SobolSequence, argument conversion of numpy arrays, unittest | the pybind11 dispatcher itself |
| rcpp_api.cpp | ipf, qis, qisi, integerise, prob2IntFreq, sobolSequence, flatten, unitTest | Rcpp's own conversions |
| UnitTester.h/.cpp, Global.h | the logger, the macros, run, withinTolerance | |
| Test*.cpp | as sequences of checks (any, C110); what they expect is checked on the model in `Conform/Cpp.lean` | |

## Conformance checks

`Verif/Conform/` runs the model on the inputs of the project's own tests (tests/test_all.py, tests/test_errors.py,
tests/testthat/test-all.R, src/Test*.cpp) and compares the outcome with what those tests expect: populations, exact doubles, numbers
of iterations, chi-squared statistics, p-values, errors. These are `#guard`s, evaluated and not proved, and no theorem uses them;
they are evidence that the model says what the code does, which no theorem about the model can be. All of them agree, with one
exception: the last case of tests/test_errors.py passes marginals of integers where doubles are wanted, so that the code reads
temporaries that are gone (C55); the project expects an exception, the model says undefined behaviour. A few large cases of test-all.R
are left out for the time they take.

Not modelled at all: the compiler, threads (the library has none), allocator failure outside `NDArray::resize`.
