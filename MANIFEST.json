{"claims": [
 {"property": "C01", "status": "proved", "theorems": ["HL.C01_row_major_iteration"], "note": ""},
 {"property": "C02", "status": "proved", "theorems": ["HL.C02_column_major_iteration", "HL.C02_r_array_conversion", "HL.C02_r_vector_conversion"], "note": ""},
 {"property": "C03", "status": "proved", "theorems": ["HL.C03_addressing_bijection", "HL.C03_read_write", "HL.C03_array_forms"], "note": ""},
 {"property": "C04", "status": "proved", "theorems": ["HL.C04_reduce1", "HL.C04_reduce1_bad_dimension"], "note": ""},
 {"property": "C05", "status": "proved", "theorems": ["HL.C05_reduce"], "note": ""},
 {"property": "C06", "status": "proved", "theorems": ["HL.C06_slice", "HL.C06_slice_covers", "HL.C06_slice_throws", "HL.C06_slice_negative_index_unsafe"], "note": ""},
 {"property": "C07", "status": "proved", "theorems": ["HL.C07_flatten", "HL.C07_flatten_r"], "note": "total below 2^61, the largest table that can be allocated"},
 {"property": "C08", "status": "partial", "theorems": ["HL.C08_flatten_safe_partial", "HL.C08_flatten_negative_unsafe", "HL.C08_flatten_negative_total_throws"], "note": "false of the code for negative counts: proved that they cause an out-of-bounds write"},
 {"property": "C09", "status": "proved", "theorems": ["HL.C09_direction_numbers", "HL.C09_closed_form", "HL.C09_all_positions", "HL.C09_point_unique", "HL.C09_point_exists", "HL.C09_portable"], "note": ""},
 {"property": "C10", "status": "proved", "theorems": ["HL.C10_open_interval", "HL.C10_python_value"], "note": ""},
 {"property": "C11", "status": "proved", "theorems": ["HL.C11_no_repeats"], "note": ""},
 {"property": "C12", "status": "proved", "theorems": ["HL.C12_stratified"], "note": ""},
 {"property": "C13", "status": "partial", "theorems": ["HL.C13_exhaustion", "HL.C13_python_exhaustion_partial", "HL.C13_python_not_stop_iteration"], "note": "C++ part proved; in Python exhaustion raises IndexError, not StopIteration (proved)"},
 {"property": "C14", "status": "partial", "theorems": ["HL.C14_skip_partial", "HL.C14_skip_zero", "HL.C14_skip_one"], "note": "proved for 0 and 2..2^31; false for 1 (one point is skipped) and above 2^31 (never returns)"},
 {"property": "C15", "status": "partial", "theorems": ["HL.C15_skip_terminates_partial", "HL.C15_skip_diverges"], "note": "false of the code above 2^31: proved that the call never returns"},
 {"property": "C16", "status": "proved", "theorems": ["HL.C16_projection"], "note": ""},
 {"property": "C17", "status": "partial", "theorems": ["HL.C17_dimension_check", "HL.C17_python_dimension_check_partial", "HL.C17_python_truncates"], "note": "the C++ check is exact; the Python argument is reduced modulo 2^32 first (proved)"},
 {"property": "C18", "status": "partial", "theorems": ["HL.C18_stream_partial", "HL.C18_reset_between_points", "HL.C18_reset_stale", "HL.C18_reset_stale_witness"], "note": "reset() in the middle of a point leaves the rest of the old point in the stream (proved)"},
 {"property": "C19", "status": "partial", "theorems": ["HL.C19_validation_int", "HL.C19_validation_exact", "HL.C19_validation_partial", "HL.C19_negation_infinite_total"], "note": "Integer problems: accepted iff consistent. Rational problems in exact arithmetic: accepted iff consistent up to the tolerances, which are spelled out. Float problems: same characterisation with the comparisons as the code makes them, for finite totals; infinite totals reach an undefined cast (negation)."},
 {"property": "C20", "status": "proved", "theorems": ["HL.C20_population_int", "HL.C20_population_float", "HL.C20_bound_is_sharp"], "note": "Float bound holds below 2^52; sharp."},
 {"property": "C21", "status": "proved", "theorems": ["HL.C21_population", "HL.qis_accepted"], "note": "Every accepted problem with totals below 2^52; qis_accepted shows nothing else returns."},
 {"property": "C22", "status": "proved", "theorems": ["HL.C22_conv"], "note": ""},
 {"property": "C23", "status": "proved", "theorems": ["HL.C23_tree_decided", "HL.C23_tree", "HL.C23_full_first"], "note": "For 0 <= skips <= 2^31, at most 1111 dimensions and totals below 2^52.  C23_tree_decided: conv=true exactly when skipped points plus population fit in the sequence, an exception otherwise.  C23_full_first adds problems whose first marginal covers all dimensions. C85 generalises this to marginals that share several dimensions."},
 {"property": "C24", "status": "partial", "theorems": ["HL.C24_expectation_partial", "HL.C24_expectation_tree", "HL.C24_rounded_partial", "HL.C24_negation", "HL.C28_negation_overflow", "HL.C24_expectation_decomposable"], "note": "Holds in exact arithmetic whenever some cell has no zero marginal (always for tree-structured and, more generally, decomposable problems). C24_rounded_partial: in any FP.Good arithmetic, in particular binary64, each expectation and their total are within an explicit number of roundings of the exact ones, when population^marginals * cells is at most 2^800. False in general: C24_negation gives an accepted problem on which qis returns with all expectations NaN, and C28_negation_overflow shows that a product of marginals of 2^1025 or more makes the expectation NaN in binary64."},
 {"property": "C25", "status": "proved", "theorems": ["HL.C25_all_dims_set", "HL.C25_outcomes"], "note": "For every history of solve calls; C25_outcomes lists every outcome of a call, including non-termination for skips above 2^31 as uint32."},
 {"property": "C26", "status": "partial", "theorems": ["HL.C26_individuals_partial", "HL.C26_negation", "HL.C77_draws"], "note": "False for skips 0 and 1: one point is always discarded (C26_negation is the observable witness). C77_draws gives the point used for every individual and every skips value."},
 {"property": "C27", "status": "partial", "theorems": ["HL.C27_resolve_partial", "HL.C27_negation"], "note": "False: after a successful solve of a positive population the second solve raises. Proved: any solve that returns gives a population of the right size."},
 {"property": "C28", "status": "partial", "theorems": ["HL.C28_chiSq_partial", "HL.C28_rounded_partial", "HL.C28_negation", "HL.C28_negation_overflow", "HL.C28_pValue", "HL.C28_pValue_qisi", "HL.C28_qisi_partial", "HL.C28_qisi_rounded_partial", "HL.C28_negation_qisi", "HL.C28_negation_qisi_seed"], "note": "False for qis and qisi when a marginal is zero at some cell, and for qisi when the seed is: chiSq is NaN and pValue 1; the same for qis when the product of positive marginals overflows (C28_negation_overflow). Proved with positive marginals (and seed) in exact arithmetic, and in rounded arithmetic with an explicit error bound (C28_rounded_partial; for qisi relative to the reported expectations, C28_qisi_rounded_partial). C28_pValue: in any rounding the p-value is that of chiSq for the degrees of freedom modulo 2^32."},
 {"property": "C29", "status": "partial", "theorems": ["HL.C29_conv_exact", "HL.C29_conv_rounded_partial", "HL.C29_conv_ieee"], "note": "Exact arithmetic: full, including that maxError is the attained maximum. Any rounding: conv=true bounds every deviation computed in that arithmetic unless it is NaN. Binary64 (C29_conv_ieee): with a non-negative seed and no NaN cell the exact sums are within 1e-8(1+2^-50) + n(m+1)/2^53 of the marginal m, n the number of cells summed. Problems that do not return: C37_outcomes."},
 {"property": "C30", "status": "proved", "theorems": ["HL.C30_iterations"], "note": "Any rounding, any seed, both element types, for the problems on which ipf returns (C37)."},
 {"property": "C31", "status": "partial", "theorems": ["HL.C31_zeros_and_signs_exact", "HL.C31_zeros_and_signs_partial", "HL.C31_negation_ieee"], "note": "Full in exact arithmetic. In binary64 a zero cell can become NaN (proved witness); otherwise zeros and signs are kept."},
 {"property": "C32", "status": "proved", "theorems": ["HL.C32_association", "HL.C32_odds_ratios"], "note": "Exact arithmetic, as the property says."},
 {"property": "C33", "status": "proved", "theorems": ["HL.C33_fixed_point", "HL.C33_negation_signed_seed"], "note": "Exact arithmetic, non-negative seeds; for seeds with negative cells it is false (proved witness)."},
 {"property": "C34", "status": "proved", "theorems": ["HL.C34_independence"], "note": "Exact arithmetic; also shows such problems are accepted."},
 {"property": "C35", "status": "proved", "theorems": ["HL.C35_seed_scale", "HL.C35_power_of_two"], "note": "Exact arithmetic; any non-zero constant. In binary64 the same holds bit for bit for powers of two (seed cells within 2^±400, first marginal within 2^±100): C35_power_of_two."},
 {"property": "C36", "status": "proved", "theorems": ["HL.C36_seed_shape", "HL.C36_seed_read", "HL.C36_qisi_seed_shape"], "note": "ipf and qisi."},
 {"property": "C37", "status": "partial", "theorems": ["HL.C37_returns_partial", "HL.C37_negation_covering", "HL.C37_negation_repeated", "HL.C37_debug_covering", "HL.C37_witnesses", "HL.C37_negation_long", "HL.C37_outcomes", "HL.C37_witnesses_long"], "note": "False: accepted problems with a marginal covering all dimensions, or naming a dimension of size at least two twice, never return, and an index list longer than the number of dimensions ends in std::length_error. C37_outcomes decides every accepted problem: it returns exactly when no marginal is of these kinds, and the first one that is determines the outcome otherwise."},
 {"property": "C38", "status": "partial", "theorems": ["HL.C38_no_nan_partial", "HL.C38_negation_nan_seed", "HL.C38_negation_finite_seed", "HL.C38_nan_spreads"], "note": "False: NaN seeds are always reported as converged, and in binary64 a finite seed can be. True in exact arithmetic."},
 {"property": "C39", "status": "proved", "theorems": ["HL.C39_solves_independent"], "note": "Histories of solve calls with seeds of any shape, any rounding."},
 {"property": "C40", "status": "partial", "theorems": ["HL.C40_blocked_exact", "HL.C40_blocked_partial"], "note": "Exact arithmetic: full, release and debug. Any rounding, release: conv=false unless a contributing cell became NaN."},
 {"property": "C41", "status": "proved", "theorems": ["HL.C41_population_conv", "HL.C41_outcomes", "HL.C41_improper"], "note": "C41_outcomes and C41_population_conv for the problems on which the fit returns; on all other accepted problems qisi ends as ipf does (C41_improper): std::length_error or no return."},
 {"property": "C42", "status": "partial", "theorems": ["HL.C42_negation", "HL.C42_points_partial", "HL.C42_placed_unique"], "note": "False: for all inputs, the number of skips has no effect on what the caller sees. What holds: individual n is drawn with point n of the sequence."},
 {"property": "C43", "status": "proved", "theorems": ["HL.C43_zeros"], "note": "Exact arithmetic and IEEE double precision. Same problems as C41."},
 {"property": "C44", "status": "proved", "theorems": ["HL.C44_conv", "HL.C44_disjoint"], "note": "Exact arithmetic. Same problems as C41."},
 {"property": "C45", "status": "partial", "theorems": ["HL.C45_sum_exact", "HL.C45_prob2IntFreq_exact", "HL.C45_sum_partial", "HL.C45_prob2IntFreq_partial", "HL.C45_negation"], "note": "Exact arithmetic: full. Any rounding: under a bound on length times population. False in IEEE double precision for very long vectors (2^24+1 entries give one too many)."},
 {"property": "C46", "status": "proved", "theorems": ["HL.C46_rounds", "HL.C46_prob2IntFreq", "HL.C46_rounded", "HL.C46_rounded_prob2IntFreq"], "note": "Exact arithmetic for all vectors; rounded arithmetic (IEEE included) for normal doubles with (pop + 2) * (n + 3)^2 at most 2^52."},
 {"property": "C47", "status": "proved", "theorems": ["HL.C47_optimal", "HL.C47_prob2IntFreq"], "note": "Exact arithmetic."},
 {"property": "C48", "status": "proved", "theorems": ["HL.C48_order", "HL.C48_prob2IntFreq"], "note": "Exact arithmetic."},
 {"property": "C49", "status": "partial", "theorems": ["HL.C49_terminates", "HL.C49_outcomes_partial", "HL.C49_signed", "HL.C49_negation_empty", "HL.C49_negation_zero", "HL.C49_negation_signed"], "note": "C49_terminates: every vector of doubles and any arithmetic, the call ends; it raises exactly for a negative population, otherwise returns or is undefined. False for the empty vector (out of bounds write) and for vectors summing to zero (NaN converted to an integer). Negative entries are accepted and the total can then exceed the population (C49_signed, C49_negation_signed)."},
 {"property": "C50", "status": "partial", "theorems": ["HL.C50_total_partial", "HL.C50_rounded_partial", "HL.C50_rounded_close_partial", "HL.C50_negation", "HL.C50_negation_zero", "HL.C50_negation_ieee"], "note": "False: the total is truncated where the check rounds it, and a zero total is undefined behaviour; [0.7, 0.2, 0.1] in IEEE doubles is such an input. In rounded arithmetic, when the computed total is an integer, it holds, each entry moving by less than one."},
 {"property": "C51", "status": "partial", "theorems": ["HL.C51_returns", "HL.C51_near", "HL.C51_rejects", "HL.C51_outcomes", "HL.C51_total_partial", "HL.C51_negation_total", "HL.C51_negation_nonfinite"], "note": "Every marginal preserved, everything else rejected; the total itself only when the marginals are exact integers (false for a 10000 by 10000 constant array), undefined behaviour for NaN entries."},
 {"property": "C52", "status": "partial", "theorems": ["HL.C52_size_one", "HL.C52_size_one_qisi", "HL.C52_chiSq_zero", "HL.C52_chiSq_zero_qisi", "HL.C52_flag_partial", "HL.C52_negation_dropped", "HL.C52_negation_truncated", "HL.C52_negation_underflow"], "note": "The two degenerate values are proved end to end for qis and qisi. The last clause is false: the failure flag is dropped, the degrees of freedom are truncated to 32 bits, and an underflow in gamain reports 1 for very bad fits."},
 {"property": "C53", "status": "partial", "theorems": ["HL.C53_negation", "HL.C53_negation_witness", "HL.C53_negation_qis", "HL.C53_negation_qisi", "HL.C53_negation_state", "HL.C53_negation_less", "HL.C53_negation_overflow", "HL.C53_negation_overflow_qisi"], "note": "False: the code computes a different quantity (C53_negation gives it exactly); witness with one individual in each of two cells. C53_negation_qis, _qisi and _state give the value reported with every population; C53_negation_less: it is below the documented one whenever there are at least as many individuals as cells. C53_negation_overflow: with a gamma function that overflows from 172 on, 0 or NaN is reported once a cell holds 170 individuals."},
 {"property": "C54", "status": "partial", "theorems": ["HL.C54_qis_partial", "HL.C54_qisi_partial", "HL.C54_ipf_partial", "HL.C54_flatten_partial", "HL.C54_integerise_partial", "HL.C54_integerise1d_partial", "HL.C54_same_partial", "HL.C54_negation_fortran", "HL.C54_negation_flatten", "HL.C54_negation_reversed"], "note": "False as stated: the bindings read the memory from the first element on and ignore the strides. Proved for row-by-row (C-contiguous) arrays, for each function, down to the core call on the logical contents. Proved false for column-by-column arrays (elements permuted) and reversed views (read past the end)."},
 {"property": "C55", "status": "partial", "theorems": ["HL.C55_partial", "HL.C55_negation"], "note": "False as stated: marginals that numpy has to convert (integer arrays, lists) are temporaries of the loop body and gone when they are read. Proved for float64 arrays; for every problem without negative entries with at least one converted marginal the call is undefined behaviour."},
 {"property": "C56", "status": "proved", "theorems": ["HL.C56_qis_core", "HL.C56_qisi_core", "HL.C56_ipf_core", "HL.C56_integerise_core", "HL.C56_result", "HL.C56_qis", "HL.C56_qis_tree", "HL.C56_qisi", "HL.C56_ipf"], "note": "For every problem whose dimensions and sizes fit together. Each R call is a core call on the problem with dimensions and marginals in reverse order, for any floating-point arithmetic; results in R's own indexing meet the marginals (qis, qisi for totals below 2^31, the range of R's integers; ipf in exact arithmetic, in rounded arithmetic through C56_ipf_core and C29)."},
 {"property": "C57", "status": "partial", "theorems": ["HL.C57_exhausts_partial", "HL.C57_conserves_partial", "HL.C57_negation_wrap"], "note": "Proved for totals below 2^32; above, the total wraps and the property is false (witness)."},
 {"property": "C58", "status": "partial", "theorems": ["HL.C58_with_replacement", "HL.C58_with_replacement_double", "HL.C58_constrained_partial", "HL.C58_negation_zero", "HL.C58_negation_limit", "HL.C58_negation_assign"], "note": "With replacement: proved for positive totals (integers below 2^32; doubles); false for a zero total (out-of-bounds). Constrained: proved for a positive limit; false for limit 0; false after assignment through operator[]."},
 {"property": "C59", "status": "partial", "theorems": ["HL.C59_pick_int", "HL.C59_pick_zero", "HL.C59_pick_double_partial", "HL.C59_negation_small", "HL.C59_negation_infinite"], "note": "Full for qis (integer weights up to 2^53). For qisi (double weights) totals between 2^-990 and 2^1023; false outside."},
 {"property": "C60", "status": "partial", "theorems": ["HL.Heap.C60_safe", "HL.Heap.C60_frees_only_own", "HL.Heap.C60_unowned_stays", "HL.Heap.C60_release", "HL.Heap.C60_destroy", "HL.Heap.C60_no_leak", "HL.Heap.C60_negation_bad_alloc", "HL.Heap.C60_negation_bad_alloc_null", "HL.Heap.C60_moved_from"], "note": "Proved for every sequence of operations in which the allocations made by resize succeed, including absence of leaks. When an allocation in resize fails and the exception is caught or unwinds the stack, the old block is freed twice (witness)."},
 {"property": "C61", "status": "proved", "theorems": ["HL.C61_step", "HL.C61_format", "HL.C61_surplus", "HL.C61_arguments", "HL.C61_negation_nested"], "note": "Includes that every integer or integer-vector argument meets the restriction, and a witness that the restriction is needed."},
 {"property": "C62", "status": "partial", "theorems": ["HL.C62_qis_partial", "HL.C62_seed_partial", "HL.C62_negation_short_index", "HL.C62_negation_long_seed", "HL.C62_ipf_partial", "HL.C62_qisi_partial"], "note": "False as stated: an index vector shorter than its marginal has dimensions is read beyond its end (C62_negation_short_index), and so is the list of sizes when the seed has more dimensions than the problem (C62_negation_long_seed). Proved: with long enough index vectors and seeds without surplus dimensions, qis, qisi and ipf are safe for any lists (totals below 2^31, or whose rounding fits in 64 bits for ipf; no empty vectors): exception, result for a consistent problem, or one of the non-terminating cases of C14 and C37; wrong or negative seeds are rejected."},
 {"property": "C63", "status": "proved", "theorems": ["HL.C63_joint", "HL.C63_ts_sequence", "HL.C63_first_two"], "note": "the (t,s)-sequence property with t the sum of the degrees less one, for every subset of coordinates; rests on kernel checks of the whole table (irreducibility, distinctness)"},
 {"property": "C64", "status": "proved", "theorems": ["HL.C64_coordinates_differ"], "note": "consequence of C63"},
 {"property": "C65", "status": "partial", "theorems": ["HL.C65_low_partial", "HL.C65_high_partial", "HL.C65_low_succeeds_partial", "HL.C65_high_succeeds_partial", "HL.C65_low_rounded_partial", "HL.C65_low_succeeds_rounded_partial", "HL.C65_high_rounded_partial", "HL.C65_high_succeeds_rounded_partial", "HL.C65_small_is_zero"], "note": "Both branches of the incomplete gamma evaluation approximate the integral of the chi-squared density and meet their stopping criterion within 10000 steps for statistics up to a million, in exact arithmetic and in binary64 with the rounding of every operation accounted for, relative to the accuracy of the library's log, lgamma and exp at the arguments used. False in relative terms for small tails: below 1e-17 binary64 reports exactly 0 with the flag set (C65_small_is_zero). Missing: statistics above a million, and the accuracy of the mathematics library, which is a hypothesis."},
 {"property": "C66", "status": "proved", "theorems": ["HL.C66_lengths_qis", "HL.C66_lengths_qisi", "HL.C66_lengths_ipf", "HL.C66_index_qis", "HL.C66_index_qisi", "HL.C66_index_ipf", "HL.C66_integerise1d"], "note": ""},
 {"property": "C67", "status": "partial", "theorems": ["HL.C67_sobolSequence", "HL.C67_refuses", "HL.C67_negative_skip_never_returns"], "note": "Proved for every non-negative skip. False for negative skips: the call never returns."},
 {"property": "C68", "status": "partial", "theorems": ["HL.C68_flatten", "HL.C68_names", "HL.C68_repeated_name", "HL.C68_too_few_names", "HL.C68_negative_unsafe"], "note": "Proved for non-negative counts and distinct names, one per dimension; C68_names describes any names (repeated names lose columns). False with fewer names than dimensions and with a negative count: memory outside the vectors is accessed."},
 {"property": "C69", "status": "proved", "theorems": ["HL.C69_closest"], "note": "Exact arithmetic."},
 {"property": "C70", "status": "proved", "theorems": ["HL.C70_converges", "HL.C70_limit", "HL.C70_gives_up"], "note": "Exact arithmetic."},
 {"property": "C71", "status": "proved", "theorems": ["HL.C71_order"], "note": "In exact arithmetic, for problems in which every marginal leaves out a dimension."},
 {"property": "C72", "status": "proved", "theorems": ["HL.C72_ipf", "HL.C72_qisi", "HL.C72_integerise"], "note": "In every arithmetic exact on whole numbers up to 2^53, IEEE included; every marginal leaves out a dimension. integerise of vectors: C46, C50."},
 {"property": "C73", "status": "proved", "theorems": ["HL.C73_expectation"], "note": "In every arithmetic exact on whole numbers up to 2^53, IEEE included."},
 {"property": "C74", "status": "proved", "theorems": ["HL.C74_order", "HL.C74_prob2IntFreq", "HL.C74_tight"], "note": "Any rounding that is monotone and accurate. C74_tight: three doubles for which the bound is attained, so C47 and C48 do not hold in IEEE arithmetic."},
 {"property": "C75", "status": "partial", "theorems": ["HL.C75_negation", "HL.C75_negation_double", "HL.C75_whole_partial"], "note": "False, in exact arithmetic already: C75_negation (a 3x3 table), and in double precision: C75_negation_double. Proved for arrays of whole numbers."},
 {"property": "C76", "status": "proved", "theorems": ["HL.C76_zeros", "HL.C76_zeros_vector", "HL.C76_zeros_rounded"], "note": "Arrays: exact and IEEE arithmetic, totals below 2^52. Vectors: exact arithmetic, and rounded arithmetic for (pop + 2) * (n + 3)^2 at most 2^52."},
 {"property": "C77", "status": "proved", "theorems": ["HL.C77_draws"], "note": "Marginals that name a dimension twice are excluded."},
 {"property": "C78", "status": "proved", "theorems": ["HL.C78_draws"], "note": "Exact arithmetic; C42_points_partial is the same run in rounded arithmetic, in terms of the rounded sums."},
 {"property": "C79", "status": "proved", "theorems": ["HL.C79_domain", "HL.C79_median", "HL.C79_symmetric", "HL.C79_ends"], "note": "As stated. The ends 0 and 1, which the code sets out to recover, give NaN in binary64 (finding): the recovered value ±DBL_MAX is lost in the refinement step. The accuracy of the approximation is C92."},
 {"property": "C80", "status": "partial", "theorems": ["HL.C80_construct", "HL.C80_outcomes", "HL.C80_first", "HL.C80_one", "HL.C80_zero", "HL.C80_zero_ub", "HL.Normal.C80_independent", "HL.Normal.C80_equal", "HL.Normal.C80_opposite", "HL.Normal.C80_first_back", "HL.Normal.C80_copula", "HL.Normal.C80_corner"], "note": "Proved, for any mathematics library right to 14 digits: construction, the first number, the correlations 0, 1 and -1 for all non-zero inputs, and the copula for every correlation and inputs between 2^16 and 2^32-2^16. False of the code as a whole (finding, C80_corner): with correlation 5/8 the inputs (2^32-1, 2^32-1) give a probability of 1, and 2^32 is converted to uint32_t; a zero input converts NaN (C80_zero_ub)."},
 {"property": "C81", "status": "partial", "theorems": ["HL.C81_min", "HL.C81_isZero", "HL.C81_marginalProduct", "HL.C81_negation_max", "HL.C81_negation_max_iff"], "note": "min, isZero and marginalProduct as stated. max is false of the code: it computes the minimum, and is the largest entry only of constant arrays."},
 {"property": "C82", "status": "partial", "theorems": ["HL.C82_negation_single", "HL.C82_negation_marginal", "HL.C82_negation_r"], "note": "False of the code: every such array, in any position, leads to undefined behaviour (a division by zero, or a read outside the sizes).  The theorems are universal over those arrays and the other arguments; there is no positive part."},
 {"property": "C83", "status": "partial", "theorems": ["HL.C83_qis_partial", "HL.C83_qisi_partial", "HL.C83_integerise_partial", "HL.C83_negation"], "note": "Proved that checked 64-bit arithmetic and unbounded arithmetic give the same outcome in qis, qisi and integerise for all inputs. The last clause is false of the code: a total of 2^63 or more overflows instead of being rejected (C83_negation)."},
 {"property": "C84", "status": "partial", "theorems": ["HL.C84_small_partial", "HL.C84_wrapped", "HL.C84_negation"], "note": "False: when the number of cells is a multiple of 2^64 (for instance 64 attributes with two values each) the size wraps to 0, nothing is allocated and qis reaches through a null pointer (C84_negation). Below 2^64 cells it gives the outcome of the model with unbounded sizes, or throws when there is no memory (C84_small_partial). From 2^64 cells on, if the number is not a multiple, too small a table is allocated: every access to it stays inside, but different cells share an entry (C84_wrapped); the run over such a table, which would take 2^64 steps, is not modelled further."},
 {"property": "C85", "status": "partial", "theorems": ["HL.C85_decomposable_partial", "HL.C85_tree", "HL.C85_returns", "HL.C85_negation_order"], "note": "Holds when the marginals are listed in such an order (C85_decomposable_partial, C85_tree: tree-structured problems are an instance). C85_returns: no exception if such marginals covering every dimension come first. False for other orders: C85_negation_order, the two axes and the diagonal of a 2x2 table, gives conv false with the diagonal last and true with it first. The agreement along several dimensions together is not validated by the code (see C24_negation)."},
 {"property": "C86", "status": "partial", "theorems": ["HL.C86_met_partial", "HL.C86_outcomes", "HL.C86_stuck", "HL.C86_returns", "HL.C86_negation", "HL.C86_negation_diverges", "HL.C86_stuck_rounded", "HL.C86_returns_rounded", "HL.C86_negation_overflow", "HL.C86_chiSq", "HL.C86_negation_chiSq", "HL.C86_expected_rounded", "HL.C86_chiSq_rounded", "HL.C86_same_expectation"], "note": "Proved for marginals that name no dimension twice and leave at least one out; false of the code otherwise (C86_negation: never returns; C86_negation_diverges: the loop over the states with no free dimension never ends). C86_stuck and C86_returns are for exact arithmetic. C86_stuck_rounded and C86_returns_rounded give the same in binary64 when population^marginals * cells is at most 2^800 (and marginals + 2 * marginals * population + 2 * cells at most 2^52); false without such a condition: C86_negation_overflow. C86_chiSq gives the expectation and the statistics in exact arithmetic when no marginal entry is zero; with a zero entry chiSq is NaN and the p-value 1 (C86_negation_chiSq). C86_expected_rounded and C86_chiSq_rounded give both in binary64 up to a stated number of roundings. C86_same_expectation: the option changes neither the expectation nor the number of individuals."},
 {"property": "C87", "status": "partial", "theorems": ["HL.SMem.C87_refines", "HL.SMem.C87_safe_partial", "HL.SMem.C87_ends", "HL.SMem.C87_no_leak", "HL.SMem.C87_interleave", "HL.SMem.C87_copied", "HL.SMem.C87_negation"], "note": "False of the code in one case: when an allocation fails the constructor (or reset) raises nothing and the next draw dereferences a null pointer (C87_negation). Proved: that is the only undefined outcome of any program (C87_safe_partial), memory is exactly four blocks per generator whatever fails, nothing leaks, and without failures programs see exactly the values of the memoryless model, independent of interleaving."},
 {"property": "C88", "status": "proved", "theorems": ["HL.C88_categories", "HL.C88_dimensions", "HL.C88_marginal_axes"], "note": "Exact arithmetic. In binary64 the order of additions changes with the names, so tables agree only up to rounding."},
 {"property": "C89", "status": "partial", "theorems": ["HL.C89_units_partial", "HL.C89_negation_iterations"], "note": "Exact arithmetic: iteration by iteration everything is multiplied by k, and for k >= 1 at least as many iterations are made. That the number of iterations is the same is false of the code (absolute tolerance)."},
 {"property": "C90", "status": "proved", "theorems": ["HL.C90_seed_scale", "HL.C90_power_of_two"], "note": "Exact arithmetic for any non-zero constant, binary64 for powers of two. Problems on which the fit returns; on the others qisi ends as ipf does, whatever the seed (C41_improper)."},
 {"property": "C91", "status": "proved", "theorems": ["HL.C91_discrepancy", "HL.C91_one_coordinate", "HL.C91_points", "HL.C91_first_two"], "note": "From C63 by cutting boxes into dyadic pieces and the positions into aligned blocks."},
 {"property": "C92", "status": "proved", "theorems": ["HL.Normal.C92_inverse", "HL.Normal.C92_increasing", "HL.Normal.C92_cumNorm"], "note": "The normal distribution is the integral of the density (NormalSpec); the library is any one within a part in 10^14 (Accurate), which exists (accurate_exists). Proved from certificates of sign for the polynomials of the approximation and an error analysis of the refinement step in floating point."},
 {"property": "C93", "status": "partial", "theorems": ["HL.C93_unit_partial", "HL.C93_stuck"], "note": "False of the code: C93_stuck gives marginals for 180 million people for which double precision never gets below the absolute tolerance of 1e-8, although the solution exists. Proved (C93_unit_partial) for every rounded arithmetic, in particular binary64, when population times a small multiple of the number of cells in a sum is at most 89 million: convergence in one iteration and every cell within an explicit number of roundings."},
 {"property": "C94", "status": "proved", "theorems": ["HL.C94_closest", "HL.C94_odds_ratios"], "note": "For every rounding with relative error 2^-53 (binary64 included), under the condition RegularRun (RegularSpec.lean) that no intermediate cell under- or overflows. The marginal sums are covered by C29_conv_ieee."},
 {"property": "C95", "status": "proved", "theorems": ["HL.C95_rate", "HL.C95_converges", "HL.C95_double", "HL.C95_double_converges"], "note": "C95_rate in exact arithmetic, C95_double in double precision."},
 {"property": "C96", "status": "proved", "theorems": ["HL.C96_error", "HL.C96_again"], "note": "In exact arithmetic."},
 {"property": "C97", "status": "partial", "theorems": ["HL.C97_drop_partial", "HL.C97_two", "HL.C97_negation"], "note": "False of the code: C97_negation (double precision and exact arithmetic). Proved: a frequency drops by at most one; with two groups it never drops (exact arithmetic)."},
 {"property": "C98", "status": "proved", "theorems": ["HL.C98_same_limit", "HL.C98_seed", "HL.C98_redundant"], "note": "In exact arithmetic."},
 {"property": "C99", "status": "proved", "theorems": ["HL.C99_solvable", "HL.C99_converges", "HL.C99_blocked", "HL.C99_decides", "HL.C99_blocked_ieee"], "note": "Exact arithmetic; the negative part also in binary64 (C99_blocked_ieee), for one call."},
 {"property": "C100", "status": "partial", "theorems": ["HL.C100_solvable_partial", "HL.C100_solvable_false"], "note": "False of the code: ipf stops after 1000 iterations and qisi does not check that it converged; C100_solvable_false gives a solvable 2x2 problem on which qisi fails for every number of skips, exactly and in double precision. Proved in exact arithmetic for product seeds (with zeros) and marginals without common dimensions. Missing: other seeds for which every fit converges in time, and double precision."},
 {"property": "C101", "status": "proved", "theorems": ["HL.C101_ipf_decomposable"], "note": "In exact arithmetic; for double precision see C103."},
 {"property": "C102", "status": "proved", "theorems": ["HL.C102_qisi_decomposable"], "note": "In exact arithmetic."},
 {"property": "C103", "status": "proved", "theorems": ["HL.C103_double"], "note": "For every rounding that satisfies FP.Good, which IEEE 754 double precision does (FP.ieee_good)."},
 {"property": "C104", "status": "partial", "theorems": ["HL.C104_negation", "HL.C104_whole_partial"], "note": "False, in exact and in double precision: C104_negation (a 3x3 array whose middle cell holds 1 and gets 2). Proved for arrays of whole numbers; for vectors see C46."},
 {"property": "C105", "status": "proved", "theorems": ["HL.C105_added", "HL.C105_attached"], "note": "In any rounding. Dimensions and marginals added at the end."},
 {"property": "C106", "status": "proved", "theorems": ["HL.C106_new", "HL.C106_first", "HL.C106_conv"], "note": "holds whether or not conv is true; C106_conv: never conv false when every marginal names a new dimension"},
 {"property": "C107", "status": "proved", "theorems": ["HL.C107_padded", "HL.C107_returns", "HL.C107_same", "HL.C107_accepted"], "note": "array and conv; chi-square and its p-value are not the same, see DESIGN.md"},
 {"property": "C108", "status": "proved", "theorems": ["HL.C108_padded", "HL.C108_returns", "HL.C108_exact"], "note": "release build; exact and IEEE arithmetic"},
 {"property": "C109", "status": "proved", "theorems": ["HL.C109_values", "HL.C109_undefined", "HL.C109_frame", "HL.C109_copy", "HL.C109_move", "HL.C109_view"], "note": "allocations succeed; failing ones are in C60"},
 {"property": "C110", "status": "partial", "theorems": ["HL.UnitTest.C110_fresh", "HL.UnitTest.C110_counts", "HL.UnitTest.C110_clean", "HL.UnitTest.C110_all_run", "HL.UnitTest.C110_errors_partial", "HL.UnitTest.C110_negation", "HL.UnitTest.C110_tolerance", "HL.UnitTest.C110_tolerance_symmetric", "HL.UnitTest.C110_tolerance_negation"], "note": "false of the code where operands of equality checks have side effects: they are evaluated again to print them (C110_negation); the rest is proved"},
 {"property": "C111", "status": "proved", "theorems": ["HL.C111_padded", "HL.C111_returns", "HL.C111_exact"], "note": "release build; exact and IEEE arithmetic; in floating point the hypothesis that all fits consist of numbers is needed, in exact arithmetic it is met automatically; non-negative seeds; the chi-squared statistic and p-value are not covered (NaN with zero expected values, see C28)"},
 {"property": "C112", "status": "proved", "theorems": ["HL.C112_integerise", "HL.C112_prob2IntFreq", "HL.C112_vector", "HL.C112_rounded"], "note": "The complete result, in exact arithmetic for all three functions; in doubles for integerise(frac, pop) with the shares as computed."},
 {"property": "C113", "status": "proved", "theorems": ["HL.C113_integerise", "HL.C113_exact", "HL.C113_prob2IntFreq", "HL.C113_vector", "HL.C113_vector_rounded", "HL.C113_array", "HL.C113_returns", "HL.C113_array_exact"], "note": "Vectors in exact arithmetic and in doubles (within the bounds of C112), arrays in every usual arithmetic provided that the fits consist of numbers, which is automatic in exact arithmetic."},
 {"property": "C114", "status": "proved", "theorems": ["HL.C114_scale", "HL.C114_power_of_two", "HL.C114_order", "HL.C114_order_vector", "HL.C114_ties"], "note": "C114_ties: without the condition on remainders the order does matter, since ties go to the first."},
 {"property": "C115", "status": "proved", "theorems": ["HL.C115_points", "HL.C115_unique", "HL.C115_returns", "HL.C115_result", "HL.C115_otherwise"], "note": "The rule determines the result of qis completely."},
 {"property": "C116", "status": "proved", "theorems": ["HL.C116_redundant", "HL.C116_repeated"], "note": "From the complete rule of C115."},
 {"property": "C117", "status": "proved", "theorems": ["HL.C117_unique", "HL.C117_returns", "HL.C117_result", "HL.C117_rounded"], "note": "The rule determines the result of qisi completely (closed form of the draws in exact arithmetic; C117_rounded for any rounding)."},
 {"property": "C118", "status": "proved", "theorems": ["HL.C118_qis_flatten", "HL.C118_qisi_flatten", "HL.C118_pipeline"], "note": "Any rounding that satisfies the IEEE laws; the bounds on the input are those of C45 and C23."},
 {"property": "C119", "status": "proved", "theorems": ["HL.C119_ipf_integerise", "HL.C119_independent", "HL.C119_rounded"], "note": "Exact arithmetic; C119_rounded for any rounding without NaN results, with a marginal for each attribute, when integerise returns."},
 {"property": "C120", "status": "partial", "theorems": ["HL.C120_negation_lowered", "HL.C120_negation_raised", "HL.C120_balanced_partial"], "note": "False: operator[] leaves the total as it was. True of edits that leave the total unchanged."},
 {"property": "C121", "status": "proved", "theorems": ["HL.C121_index", "HL.C121_transposed", "HL.C121_mapped", "HL.C121_fixed", "HL.C121_negation_all_fixed"], "note": "All four index classes."},
 {"property": "C122", "status": "proved", "theorems": ["HL.C122_ipf", "HL.C122_py_ipf", "HL.C122_qis", "HL.C122_qisi", "HL.C122_qis_again"], "note": "Calls that return."},
 {"property": "C123", "status": "proved", "theorems": ["HL.C123_agrees", "HL.C123_truthful", "HL.C123_refused", "HL.C123_texts", "HL.C123_negation_index"], "note": "For integer marginals. The number after \"index\" in the partial sum message is a rank among the places of the dimension, not a marginal number (C123_negation_index)."},
 {"property": "C124", "status": "proved", "theorems": ["HL.C124_iterates", "HL.C124_parts", "HL.C124_independent", "HL.C124_accepted", "HL.C124_negation_refused"], "note": "In any arithmetic; acceptance for rational marginals in exact arithmetic. C124_negation_refused: the converse of acceptance is false."},
 {"property": "C125", "status": "proved", "theorems": ["HL.C125_repeated", "HL.C125_implied"], "note": "Exact arithmetic."},
 {"property": "C126", "status": "proved", "theorems": ["HL.C126_alike"], "note": "In any arithmetic."},
 {"property": "C127", "status": "proved", "theorems": ["HL.C127_accepted", "HL.C127_split", "HL.C127_merged"], "note": "Exact arithmetic."},
 {"property": "C128", "status": "proved", "theorems": ["HL.C128_array", "HL.C128_rounded", "HL.C128_vector", "HL.C128_qisi"], "note": ""},
 {"property": "C129", "status": "proved", "theorems": ["HL.C129_numbers", "HL.C129_doubles", "HL.C129_special", "HL.C129_lists", "HL.C129_agrees", "HL.C129_seed", "HL.C129_seedR", "HL.C129_integer", "HL.C129_sobol", "HL.C129_texts", "HL.C129_reversed", "HL.C129_negation_reduce", "HL.C129_negation_R"], "note": "Disagreements recorded: the message about the dimension of a reduction is not true of the first dimension out of range, and R callers get the numbers of marginals in reverse order."},
 {"property": "C130", "status": "proved", "theorems": ["HL.C130_agrees", "HL.C130_truthful", "HL.C130_refused", "HL.C130_exact", "HL.C130_texts", "HL.C130_legible", "HL.C130_negation_same", "HL.C130_negation_zero"], "note": "Disagreements recorded: the precision of the numbers in the messages is coarser than that of the checks."},
 {"property": "C131", "status": "proved", "theorems": ["HL.C131_last", "HL.C131_at_most", "HL.C131_met", "HL.C131_closer", "HL.C131_again", "HL.C131_error", "HL.C131_blocked", "HL.C131_double"], "note": "exact arithmetic; C131_met, C131_closer and C131_again assume a table that meets the marginals, without which C131_blocked shows the total can be short; C131_double is the statement about the last marginal and the total in double precision"},
 {"property": "C132", "status": "proved", "theorems": ["HL.C132_ipf", "HL.C132_proportions", "HL.C132_qisi", "HL.C132_double", "HL.C132_qisi_double", "HL.C132_second"], "note": ""},
 {"property": "C133", "status": "proved", "theorems": ["HL.C133_independence", "HL.C133_no_underflow", "HL.C133_double", "HL.C133_closest", "HL.C133_conv"], "note": "exact arithmetic and binary64 (any Good rounding); problems accepted by the constructor"},
 {"property": "C134", "status": "proved", "theorems": ["HL.C134_rate", "HL.C134_two", "HL.C134_three", "HL.C134_any"], "note": "Exact arithmetic. For three or more marginals the rate is below one only for seeds within the stated spread; C70 gives convergence in the limit for wider seeds."},
 {"property": "C135", "status": "proved", "theorems": ["HL.C135_converges", "HL.C135_odds"], "note": "Any rounding that is accurate (FP.Good), so also binary64. The bound on the population is needed in some form: C93_stuck."},
 {"property": "C136", "status": "proved", "theorems": ["HL.C136_exists", "HL.C136_exact", "HL.C136_two", "HL.C136_double", "HL.C136_odds"], "note": "C136_double is for any accurate rounding (FP.Good), so also binary64."},
 {"property": "C137", "status": "proved", "theorems": ["HL.C137_closest", "HL.C137_exact", "HL.C137_two", "HL.C137_double", "HL.C137_odds"], "note": "Disjoint marginals with positive entries and a positive seed; bounds in exact arithmetic and in doubles."},
 {"property": "C138", "status": "proved", "theorems": ["HL.C138_law", "HL.C138_closest", "HL.C138_limit", "HL.C138_exact", "HL.C138_double", "HL.C138_odds"], "note": "Closest tables and repeated calls: any marginals and seeds. Single call: disjoint positive marginals, up to the error of C136."},
 {"property": "C139", "status": "proved", "theorems": ["HL.C139_closest", "HL.C139_limit", "HL.C139_exact", "HL.C139_double", "HL.C139_odds"], "note": "Closest tables and repeated calls for any marginals; single calls under the conditions of C136."},
 {"property": "C140", "status": "proved", "theorems": ["HL.C140_closest", "HL.C140_limit", "HL.C140_exact", "HL.C140_zero", "HL.C140_double"], "note": "C140_double is for any accurate rounding (FP.Good), so also binary64. C140_zero shows that the condition on the entries of the first marginals is needed."},
 {"property": "C141", "status": "proved", "theorems": ["HL.C141_closest", "HL.C141_raise", "HL.C141_limit", "HL.C141_odds"], "note": "closest tables for any marginals; repeated calls in exact arithmetic; single calls in rounded arithmetic under the conditions of C136"},
 {"property": "C142", "status": "proved", "theorems": ["HL.C142_closest", "HL.C142_limit", "HL.C142_calls", "HL.C142_added", "HL.C142_call", "HL.C142_added_call"], "note": "exact arithmetic; C142_limit, C142_calls and C142_added are about repeated calls, C142_call and C142_added_call about single ones; C142_closest states the claim for the closest table itself, C142_added and C142_added_call for one attribute with a marginal of its own"}
]}
