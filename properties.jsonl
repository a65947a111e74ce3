{"id": "C01", "title": "Packing then unpacking returns the original components", "statement": "For each supported packed type T (int32, uint32, int64, uint64) and every number of components n not exceeding the maximum size, if every component lies in the limits reported for n, then pushing the components one by one into a kpacker<T>(n) never throws and never overflows T, the resulting packed value is accepted by kunpacker<T>(value, n), and the n extractions return exactly the pushed components in order.", "quantifier": "all four packed types, all sizes up to the type's maximum, all component vectors inside the limits", "why_tests_cant": "The component boxes contain up to 2^64 vectors; the division-free remainder arithmetic of the unpacker is correct or not for all of them, tests sample a few.", "anchors": ["include/obake/kpack.hpp: kpacker, kunpacker, kpackable, detail::kpack_max_size, kpack_get_lims, kpack_get_klims", "src/kpack.cpp: kpack_data tables"]}
{"id": "C02", "title": "kpacker rejects exactly what it cannot represent", "statement": "kpacker<T>(n) throws overflow_error iff n exceeds the maximum size; pushing a value into a packer of size n throws out_of_range iff n values have been pushed already, otherwise overflow_error iff the value is outside the component limits of n; in every other case it succeeds without undefined behaviour, and a failed push leaves the packed value unchanged.", "quantifier": "all types, sizes, push histories and pushed values", "why_tests_cant": "Undefined behaviour (signed overflow) at a boundary is not observable by a passing test, and histories are unbounded.", "anchors": ["include/obake/kpack.hpp: kpacker, kunpacker, kpackable, detail::kpack_max_size, kpack_get_lims, kpack_get_klims", "src/kpack.cpp: kpack_data tables"]}
{"id": "C03", "title": "kunpacker rejects exactly what is not a packed value, and packing is a bijection", "statement": "kunpacker<T>(v, n) succeeds iff n is within the maximum size and v lies in the packed-value limits of n (v must be 0 for n = 0), throwing overflow_error resp. invalid_argument otherwise; every accepted v unpacks to components inside the component limits and packing these again gives back v. Hence for each n packing is a bijection between the box of admissible vectors and the interval of admissible packed values.", "quantifier": "all types, all sizes, all values of T", "why_tests_cant": "An exhaustive check needs 2^64 values for each size.", "anchors": ["include/obake/kpack.hpp: kpacker, kunpacker, kpackable, detail::kpack_max_size, kpack_get_lims, kpack_get_klims", "src/kpack.cpp: kpack_data tables"]}
{"id": "C04", "title": "The unpacker's multiply-and-shift division is exact", "statement": "Extracting component i of a packed value returns the mathematical digit floor((v - vmin) / delta^i) mod delta + min for every admissible v: the precomputed (multiplier, shift1, shift2) triples implement exact floor division for every dividend of the unsigned type, not only for those tried.", "quantifier": "all table entries of all four types, all 2^32 resp. 2^64 dividends", "why_tests_cant": "Magic-number division errors show up on isolated dividends that sampling misses.", "anchors": ["include/obake/kpack.hpp: detail::kpack_divcnst / kunpacker::operator>>", "src/kpack.cpp: divcnst tables"]}
{"id": "C05", "title": "Packing is an additive homomorphism", "statement": "If a and b are admissible component vectors of the same size and the component-wise sum is admissible, then the packed value of the sum is the sum of the packed values and that sum does not overflow T.", "quantifier": "all types, sizes and pairs of vectors", "why_tests_cant": "Pairs of vectors are unbounded for practical purposes; this is what makes monomial multiplication by a single addition sound.", "anchors": ["include/obake/kpack.hpp: kpacker, kunpacker, kpackable, detail::kpack_max_size, kpack_get_lims, kpack_get_klims", "src/kpack.cpp: kpack_data tables"]}
{"id": "C06", "title": "Checked integer addition and subtraction are exact or throw", "statement": "safe_int_add and safe_int_sub return the mathematical result when it is representable in T and throw overflow_error otherwise, for signed and unsigned T of every width, including types narrower than int that are subject to integral promotion; no intermediate computation overflows.", "quantifier": "all integral types, all pairs of values", "why_tests_cant": "64 and 128-bit operand pairs cannot be enumerated.", "anchors": ["include/obake/detail/safe_integral_arith.hpp: safe_int_add, safe_int_sub"]}
{"id": "C07", "title": "Safe integral conversion is exact or reports failure", "statement": "safe_convert between any two integral types (any signedness, any width, bool included) returns true and stores the same mathematical value iff that value is representable in the destination; otherwise it returns false and leaves the destination alone; safe_cast throws safe_cast_failure in exactly the second case. The same holds between integral types, multiprecision integers and multiprecision rationals in any combination; what was cast can be cast back.", "quantifier": "all pairs of integral types, all values", "why_tests_cant": "Type pairs times values cannot be enumerated; the mixed-signedness comparisons are where silent wrap-around hides.", "anchors": ["include/obake/math/safe_convert.hpp: safe_convert", "include/obake/math/safe_cast.hpp: safe_cast"]}
{"id": "C08", "title": "Decimal conversion of integers is exact and never overruns its buffer", "statement": "detail::to_string(n) for an integral n yields the canonical decimal representation (no leading zeros, leading '-' iff negative, reading it back gives n) and the number of characters written never exceeds the fixed stack buffer of digits10+1 (unsigned) or digits10+2 (signed) characters, for every width including the most negative value.", "quantifier": "all integral types, all values", "why_tests_cant": "A buffer overrun by one on the extreme value of one width is silent in tests.", "anchors": ["src/detail/to_string.cpp: to_string_unsigned_integral_impl, to_string_signed_integral_impl"]}
{"id": "C09", "title": "Merging symbol sets yields the ordered union and correct insertion maps", "statement": "merge_symbol_sets(s1, s2) returns the ordered, duplicate-free union u and two insertion maps; replaying map i on s_i (inserting before index j all the symbols recorded for j, and at the end those recorded for |s_i|) gives u; and the map is empty iff s_i already equals u.", "quantifier": "all pairs of symbol sets", "why_tests_cant": "Relative orderings of two sets are combinatorially many and symbols are arbitrary strings.", "anchors": ["src/symbols.cpp: merge_symbol_sets", "include/obake/symbols.hpp"]}
{"id": "C10", "title": "Symbol intersections return exactly the right indices", "statement": "ss_intersect_idx(s, ss) returns exactly the indices in ss of the symbols also in s, in increasing order; sm_intersect_idx(m, ss) returns exactly the (index, mapped value) pairs for symbols of ss that are keys of m; neither reads past the end of ss.", "quantifier": "all symbol sets and symbol maps", "why_tests_cant": "Out-of-range iterator dereference is silent; input space unbounded.", "anchors": ["src/symbols.cpp: ss_intersect_idx", "include/obake/symbols.hpp: sm_intersect_idx"]}
{"id": "C11", "title": "Monomial equality, compatibility and unit agree with exponent vectors", "statement": "For packed_monomial<T> and a symbol set of admissible size: a key is compatible iff it encodes some vector of admissible exponents; two compatible keys are equal iff they encode the same exponents; key_is_one iff all exponents are zero; key_is_zero never; construction from a range of admissible exponents gives the compatible key encoding them.", "quantifier": "all T, all symbol sets, all keys", "why_tests_cant": "Key space is 2^64; series correctness relies on equality of keys being equality of monomials.", "anchors": ["include/obake/polynomials/packed_monomial.hpp: packed_monomial", "src/polynomials/packed_monomial.cpp"]}
{"id": "C12", "title": "Monomial multiplication adds exponents without overflow", "statement": "If the range overflow check on two ranges of compatible monomials returns true, then monomial_mul of any monomial of the first range by any of the second does not overflow, yields a compatible monomial and its exponents are the sums of the operands' exponents.", "quantifier": "all symbol sets, all ranges of compatible keys of any length, all pairs from them", "why_tests_cant": "Ranges are unbounded in length, and overflow is undefined behaviour.", "anchors": ["include/obake/polynomials/packed_monomial.hpp: packed_monomial", "src/polynomials/packed_monomial.cpp"]}
{"id": "C13", "title": "The monomial range overflow check is exact and partition independent", "statement": "monomial_range_overflow_check returns true iff one range is empty, or the symbol set is empty, or for every symbol the sums of the two ranges' minima and of their maxima lie inside the exponent limits; the answer does not depend on whether the ranges are scanned serially or by a parallel reduction, nor on how the reduction splits and joins the range.", "quantifier": "all ranges of compatible keys, every splitting tree of a parallel reduction", "why_tests_cant": "Splitting is chosen by the scheduler at run time.", "anchors": ["include/obake/polynomials/packed_monomial.hpp: packed_monomial", "src/polynomials/packed_monomial.cpp", "src/polynomials/packed_monomial.cpp: packed_monomial_range_overflow_check"]}
{"id": "C14", "title": "Monomial degrees are exact", "statement": "key_degree is the sum of all exponents and key_p_degree the sum of the exponents at the given indices, for every compatible packed monomial, and neither computation overflows T.", "quantifier": "all T, all symbol sets, all compatible keys, all index sets", "why_tests_cant": "The absence of overflow rests on a relation between the component limits and the size for each of the 60-odd table rows.", "anchors": ["include/obake/polynomials/packed_monomial.hpp: packed_monomial", "src/polynomials/packed_monomial.cpp"]}
{"id": "C15", "title": "Monomial exponentiation is exact or throws", "statement": "monomial_pow(k, e) for integer e returns the compatible monomial whose exponents are e times those of k when all of them are admissible, and throws otherwise (domain/overflow error); it never returns a monomial with other exponents.", "quantifier": "all compatible keys, all integers e", "why_tests_cant": "Exponent products near the limits cannot be enumerated.", "anchors": ["include/obake/polynomials/packed_monomial.hpp: packed_monomial", "src/polynomials/packed_monomial.cpp"]}
{"id": "C16", "title": "Monomial differentiation and integration follow the power rule", "statement": "monomial_diff returns (exponent, monomial with that exponent decreased by one) and (0, unchanged) for a zero exponent, throwing overflow_error if the decreased exponent is not admissible; monomial_integrate returns (exponent+1, monomial with it increased), throwing domain_error for exponent -1 and overflow_error at the upper limit; all other exponents are unchanged, and differentiation inverts integration.", "quantifier": "all compatible keys, all positions", "why_tests_cant": "Boundary exponents of every table row; unbounded inputs.", "anchors": ["include/obake/polynomials/packed_monomial.hpp: packed_monomial", "src/polynomials/packed_monomial.cpp", "include/obake/polynomials/monomial_diff.hpp", "include/obake/polynomials/monomial_integrate.hpp"]}
{"id": "C17", "title": "Merging symbols into a monomial preserves its meaning", "statement": "key_merge_symbols(k, ins_map, ss) returns the key whose exponent for every old symbol is unchanged and for every inserted symbol is 0, or throws overflow_error when an exponent does not fit the limits of the enlarged symbol set; with the maps of merge_symbol_sets the represented monomial (a map from symbols to exponents) is unchanged.", "quantifier": "all symbol sets, insertion maps and compatible keys", "why_tests_cant": "Interplay of insertion positions with unpack/pack order over unbounded sets.", "anchors": ["include/obake/polynomials/packed_monomial.hpp: packed_monomial", "src/polynomials/packed_monomial.cpp", "src/polynomials/packed_monomial.cpp: key_merge_symbols impl"]}
{"id": "C18", "title": "Trimming removes exactly the unused symbols", "statement": "After key_trim_identify over all keys of a series, the marked positions are exactly those at which every key has exponent zero, and key_trim of each key drops exactly these positions leaving the represented monomial unchanged.", "quantifier": "all symbol sets, all collections of compatible keys", "why_tests_cant": "Unbounded collections.", "anchors": ["include/obake/polynomials/packed_monomial.hpp: packed_monomial", "src/polynomials/packed_monomial.cpp"]}
{"id": "C19", "title": "Monomial evaluation and substitution compute the product of powers", "statement": "key_evaluate returns the product over all symbols of value^exponent; monomial_subs returns the product over the substituted symbols of value^exponent together with the monomial in which exactly these exponents are zero, so that evaluating the returned monomial times the returned value equals evaluating the original.", "quantifier": "all compatible keys, all assignments of values", "why_tests_cant": "Unbounded inputs.", "anchors": ["include/obake/polynomials/packed_monomial.hpp: packed_monomial", "src/polynomials/packed_monomial.cpp", "include/obake/polynomials/monomial_subs.hpp"]}
{"id": "C20", "title": "Monomial hashing is homomorphic", "statement": "For packed and dynamically packed monomials the hash of a product of monomials equals the sum of the hashes modulo 2^64, hence modulo any number of segments that is a power of two.", "quantifier": "all pairs of keys whose product does not overflow", "why_tests_cant": "Multi-threaded multiplication writes each product in the segment predicted from the operands' hashes; a single counterexample loses or misplaces a term.", "anchors": ["include/obake/polynomials/packed_monomial.hpp: packed_monomial", "src/polynomials/packed_monomial.cpp", "include/obake/polynomials/d_packed_monomial.hpp: d_packed_monomial", "src/polynomials/d_packed_monomial.cpp", "include/obake/polynomials/monomial_homomorphic_hash.hpp"]}
{"id": "C21", "title": "Dynamically packed monomials behave as exponent vectors", "statement": "For d_packed_monomial<T, PSize>, for every PSize and every number of symbols: construction from admissible exponents gives a compatible key from which exactly these exponents are recovered; two such keys over the same symbols are equal iff exponents agree; multiplication after a positive overflow check adds exponents with no overflow; unit check, power, differentiation, integration, symbol merging and trimming act on exponents as for packed_monomial.", "quantifier": "all T, all PSize, any number of symbols, all keys", "why_tests_cant": "Number of symbols and pack width unbounded; last pack is only partly used.", "anchors": ["include/obake/polynomials/d_packed_monomial.hpp: d_packed_monomial", "src/polynomials/d_packed_monomial.cpp"]}
{"id": "C22", "title": "Degrees of dynamically packed monomials are exact or throw", "statement": "key_degree / key_p_degree of a d_packed_monomial return the mathematical sum of the (selected) exponents when they return; they throw overflow_error instead of returning a wrapped value.", "quantifier": "all T, all PSize, any number of symbols, all compatible keys", "why_tests_cant": "Overflow needs many large exponents; order of summation matters.", "anchors": ["include/obake/polynomials/d_packed_monomial.hpp: d_packed_monomial", "src/polynomials/d_packed_monomial.cpp"]}
{"id": "C23", "title": "Series invariant is preserved by every history of mutations", "statement": "After any sequence of term insertions (adding or subtracting, any keys and coefficients), clears, segment changes, reservations and filters, a series contains no term with zero coefficient or zero key, no two terms with equal keys, only keys compatible with its symbol set, and every stored term is found by find().", "quantifier": "all histories of mutating calls, all arguments, all numbers of segments", "why_tests_cant": "Histories are unbounded.", "anchors": ["include/obake/series.hpp: series::add_term, series_add_term, series_add_term_table, set_n_segments, clear, clear_terms, reserve, filter"]}
{"id": "C24", "title": "Term insertion accumulates coefficients", "statement": "After any history of add_term<true/false>(k, c) on an empty series, the coefficient found for a key is the sum of the inserted coefficients with their signs (absent iff this sum is zero), so the result does not depend on the order of insertions.", "quantifier": "all histories of insertions", "why_tests_cant": "Histories and orderings are unbounded.", "anchors": ["include/obake/series.hpp: series_add_term_table, series::add_term"]}
{"id": "C25", "title": "Segmentation is unobservable", "statement": "The number of segments (2^l tables) chosen by set_n_segments affects neither size(), nor find(), nor the multiset of iterated terms, nor equality, nor any arithmetic result.", "quantifier": "all l up to the maximum, all histories", "why_tests_cant": "The segment count is chosen heuristically (randomised estimation, core count), so runs differ.", "anchors": ["include/obake/series.hpp: set_n_segments, begin/end, find, size, empty"]}
{"id": "C26", "title": "Iteration, size and lookup agree", "statement": "Iterating from begin() to end() visits every stored term exactly once skipping empty tables, size() is the number of visited terms, empty() iff none, and find(k) returns the visited term with key k or end().", "quantifier": "all series with any distribution of terms over tables, including empty tables at both ends", "why_tests_cant": "Iterator skipping logic over arbitrary patterns of empty tables.", "anchors": ["include/obake/series.hpp: series_iterator, begin, end, size, empty, find"]}
{"id": "C27", "title": "Exception safety of term insertion", "statement": "If an insertion throws (incompatible key, maximum table size, failure to allocate memory for the new term, or an exception from a coefficient operation), the series remains usable: invariants hold, an exception before the table is touched leaves it unchanged, an exception after it was touched leaves that table empty and all the others unchanged.", "quantifier": "all series, all insertions, all points at which a coefficient operation or a memory allocation may throw", "why_tests_cant": "Every throw point must be covered.", "anchors": ["include/obake/series.hpp: series_add_term_table"]}
{"id": "C28", "title": "Addition and subtraction are those of the represented polynomials", "statement": "For any two series over possibly different symbol sets, x+y and x-y succeed (or throw overflow_error when an exponent does not fit the merged symbol set) and represent the mathematical sum and difference, whichever operand is larger, moved from, or aliased; the symbol set of the result is the union.", "quantifier": "all pairs of series, any segmentation, all size relations", "why_tests_cant": "The implementation has eight code paths depending on sizes, value categories and symbol sets.", "anchors": ["include/obake/series.hpp: series_default_addsub_impl, series_sym_extender, series_sym_merge"]}
{"id": "C29", "title": "In-place addition and subtraction equal their binary counterparts, also under aliasing", "statement": "x += y and x -= y leave in x the value of x + y and x - y; x += x doubles and x -= x empties the series.", "quantifier": "all series", "why_tests_cant": "Aliasing and iterator invalidation over arbitrary contents.", "anchors": ["include/obake/series.hpp: series_default_in_place_addsub_impl"]}
{"id": "C30", "title": "Negation and scalar multiplication/division act on every coefficient", "statement": "negate(x), x*c, c*x and x/c represent -x, c·x and the coefficientwise quotient; terms whose coefficient becomes zero disappear; multiplication by zero gives the empty series with the same symbol set and tag.", "quantifier": "all series and scalars", "why_tests_cant": "Erase-while-iterating loops over arbitrary tables.", "anchors": ["include/obake/series.hpp: negate, series_default_mul_impl, series_default_div_impl"]}
{"id": "C31", "title": "Equality decides equality of the represented polynomials", "statement": "x == y, for series of same rank with equal tags, returns true iff they represent the same polynomial, regardless of symbol sets, segmentation and insertion order; it is an equivalence relation and operator!= is its negation.", "quantifier": "all pairs of series", "why_tests_cant": "Unbounded; the symbol merging path may drop or duplicate terms.", "anchors": ["include/obake/series.hpp: series_default_equal_to_impl, series_cmp_identical_ss"]}
{"id": "C32", "title": "Polynomial multiplication is the product of the represented polynomials", "statement": "For any two polynomials, x*y either throws overflow_error or returns the series representing exactly the mathematical product, over the union of the symbol sets, with no zero coefficients stored, independent of operand order.", "quantifier": "all pairs of polynomials, any symbol sets, any iteration order of the hash tables", "why_tests_cant": "Unbounded operands; iteration order of hash tables is unspecified.", "anchors": ["include/obake/polynomials/polynomial.hpp: poly_mul_impl_switch, poly_mul_impl, poly_mul_impl_identical_ss, poly_mul_impl_simple"]}
{"id": "C33", "title": "Multi-threaded multiplication is independent of the schedule and of the segmentation", "statement": "For every number of segments 2^l, every interleaving of the per-segment tasks, every ordering of equal-segment terms, in both the dense and the sparse segment layout, the multi-threaded multiplication produces the same mathematical product as the simple algorithm; no two tasks write the same table.", "quantifier": "all operand lists, all l, all interleavings of the tasks", "why_tests_cant": "Schedules cannot be enumerated by running the code; rare interleavings escape tests.", "anchors": ["include/obake/polynomials/polynomial.hpp: poly_mul_impl_mt_hm, poly_mul_impl_mt_hm_compute_vseg, dense/sparse functors"]}
{"id": "C34", "title": "Multiplication detects every exponent overflow", "statement": "If the product of any pair of terms has an exponent outside the limits of the key type, then multiplication throws overflow_error and never yields a wrong term; if it does not throw, every exponent of the result is admissible.", "quantifier": "all pairs of polynomials", "why_tests_cant": "Overflow corrupts neighbouring exponents silently in the packed representation.", "anchors": ["include/obake/polynomials/polynomial.hpp: poly_mul_impl_identical_ss, monomial_range_overflow_check"]}
{"id": "C35", "title": "Truncated multiplication equals truncation of the full product", "statement": "truncated_mul(x, y, d) and truncated_mul(x, y, d, symbols) return exactly the terms of x*y with total (partial) degree at most d, for the simple and the multi-threaded algorithm, any segmentation and schedule.", "quantifier": "all pairs of polynomials, all degrees, all symbol subsets, all schedules (for partial degrees of signed d_packed_monomial: when the sum of the partial degrees of any two terms fits the degree type; the code adds them unchecked)", "why_tests_cant": "Early termination relies on sortedness by degree inside each segment; off-by-one errors drop terms only for particular degree patterns.", "anchors": ["include/obake/polynomials/polynomial.hpp: truncated_mul, poly_mul_impl_mt_hm, compute_end_idx2, seg_sorter"]}
{"id": "C36", "title": "Exponentiation is repeated multiplication, whatever the cache contains", "statement": "pow(x, n) for a natural number n equals the n-fold product of x, for every prior history of pow() and cache clearing calls on any bases and from any threads; pow(x, 0) = 1; an exponent that is not a natural number raises an exception unless x is a single coefficient or a single monomial.", "quantifier": "all bases, exponents and histories of calls, all interleavings of concurrent callers", "why_tests_cant": "The result depends on a process-global cache, i.e. on the history.", "anchors": ["include/obake/series.hpp: series_default_pow_impl, pow_cache, clear_series_pow_map", "include/obake/polynomials/polynomial.hpp: pow_poly_impl"]}
{"id": "C37", "title": "Degree of a series is the maximum of term degrees", "statement": "degree(x) (p_degree(x, s)) is the maximum of the (partial) degrees of the terms, 0 for the empty series, independent of iteration order and segmentation.", "quantifier": "all series, all symbol subsets", "why_tests_cant": "Unbounded; parallel and serial reductions.", "anchors": ["include/obake/series.hpp: series_default_degree_impl, series_default_p_degree_impl"]}
{"id": "C38", "title": "Evaluation is a ring homomorphism", "statement": "evaluate(x, m) throws invalid_argument iff a symbol of x is missing from m; otherwise it is the value of the represented polynomial at m; hence evaluate(x+y) = evaluate(x)+evaluate(y), evaluate(x*y) = evaluate(x)·evaluate(y).", "quantifier": "all polynomials, all assignments", "why_tests_cant": "Universal algebraic identity.", "anchors": ["include/obake/series.hpp: series_default_evaluate_impl", "include/obake/math/evaluate.hpp"]}
{"id": "C39", "title": "Substitution commutes with evaluation", "statement": "subs(x, m) represents x with the symbols in m replaced by their values: evaluating the result at any point equals evaluating x at the point extended by m.", "quantifier": "all polynomials, all substitution maps, all evaluation points", "why_tests_cant": "Universal algebraic identity.", "anchors": ["include/obake/polynomials/polynomial.hpp: poly_subs_impl"]}
{"id": "C40", "title": "Differentiation is the partial derivative", "statement": "diff(x, s) represents the partial derivative of x with respect to s (0 if s is not a symbol of x); it is additive and satisfies the Leibniz rule with polynomial multiplication.", "quantifier": "all polynomials, all symbols", "why_tests_cant": "Universal algebraic identity; term merging and zero exponents.", "anchors": ["include/obake/polynomials/polynomial.hpp: poly_diff_impl"]}
{"id": "C41", "title": "Integration is a right inverse of differentiation", "statement": "integrate(x, s), when it does not throw, is a polynomial whose derivative with respect to s is x and that has no term with s-exponent zero; it throws iff a term has s-exponent -1 or an exponent limit is reached.", "quantifier": "all polynomials over exact field coefficients, all symbols, s in or not in the symbol set", "why_tests_cant": "Universal algebraic identity plus symbol set extension.", "anchors": ["include/obake/polynomials/polynomial.hpp: poly_integrate_impl"]}
{"id": "C42", "title": "Filtering, truncation, trimming and symbol extension", "statement": "filter keeps exactly the terms satisfying the predicate; truncate_degree(x,d) keeps exactly the terms of degree at most d; trim(x) represents the same polynomial, over exactly the symbols occurring with non-zero exponent; add_symbols(x, s) represents the same polynomial over the union of symbols; all keep the tag.", "quantifier": "all series, predicates, degrees, symbol sets", "why_tests_cant": "Erase-while-iterating over arbitrary tables; unbounded.", "anchors": ["include/obake/series.hpp: filter, filtered, trim, add_symbols", "include/obake/polynomials/polynomial.hpp: truncate_degree, truncate_p_degree"]}
{"id": "C43", "title": "Serialisation round trip", "statement": "Loading what was saved gives a series identical to the original: same symbol set, tag, segmentation and terms, for packed and dynamically packed monomials, whatever the previous content of the destination and whatever follows in the archive; loading from an archive that ends too early throws and leaves an empty series.", "quantifier": "all series, all previous destinations, all points at which the archive may end", "why_tests_cant": "Unbounded.", "anchors": ["include/obake/series.hpp: series::save, series::load", "include/obake/symbols.hpp: save, load", "include/obake/polynomials/d_packed_monomial.hpp: save, load", "include/obake/polynomials/packed_monomial.hpp: serialize", "include/obake/power_series/power_series.hpp: save, load"]}
{"id": "C44", "title": "Conversions between series and coefficients", "statement": "Constructing a series from a scalar gives the series representing this constant; converting a single-coefficient series back gives the scalar (0 for the empty series); converting a series of non-constant content to a scalar throws invalid_argument; converting between series of the same rank and key maps each coefficient and drops those that become zero.", "quantifier": "all series and scalars", "why_tests_cant": "Unbounded.", "anchors": ["include/obake/series.hpp: series generic constructor, conversion operator, is_single_cf"]}
{"id": "C45", "title": "Construction of generators", "statement": "make_polynomials(names...) and the variant with an explicit symbol set return, for each name, the series representing exactly that symbol; an unknown name throws invalid_argument.", "quantifier": "all symbol sets and names", "why_tests_cant": "Unbounded.", "anchors": ["include/obake/polynomials/polynomial.hpp: make_polynomials", "include/obake/power_series/power_series.hpp: make_p_series, make_p_series_t, make_p_series_p"]}
{"id": "C46", "title": "Power series operations respect the truncation", "statement": "If the operands of +, -, *, pow, integrate, diff satisfy their truncation (every term's total or partial degree is at most the level) then so does the result; the result's truncation is that of the truncated operand; and its terms are exactly the terms of the exact result that fall within the truncation (for pow of a series with terms of negative degree: of the repeatedly truncated product).", "quantifier": "all power series, all truncation policies and levels", "why_tests_cant": "Universal over operands and policies; untruncated terms creep in only for certain operand combinations.", "anchors": ["include/obake/power_series/power_series.hpp: series_add, series_sub, series_in_place_add, series_in_place_sub, series_mul, pow, integrate, diff"]}
{"id": "C47", "title": "Mixing incompatible truncations is rejected", "statement": "Binary operations on power series throw invalid_argument iff both operands are truncated and their policies or levels differ; operands are left unmodified.", "quantifier": "all pairs of truncation settings", "why_tests_cant": "All combinations of policy, level and symbol set.", "anchors": ["include/obake/power_series/power_series.hpp"]}
{"id": "C48", "title": "Setting, unsetting and applying truncation", "statement": "set_truncation(x, d[, s]) removes exactly the terms of degree above d and records the setting; unset_truncation removes only the setting; truncate(x) is idempotent and has no effect on an untruncated series.", "quantifier": "all power series, levels and symbol sets", "why_tests_cant": "Unbounded.", "anchors": ["include/obake/power_series/power_series.hpp: set_truncation, unset_truncation, truncate"]}
{"id": "C49", "title": "Flyweight storage is allocated once per type", "statement": "For every history of storage requests, requests for the same type return the same storage, requests for different types return different storage, and exactly the first request for each type is told to construct the object.", "quantifier": "all histories of requests, all interleavings at the mutex granularity", "why_tests_cant": "Histories and schedules are unbounded.", "anchors": ["src/detail/fw_utils.cpp: fw_fetch_storage", "include/obake/detail/fw_utils.hpp: fw_holder_class"]}
{"id": "C50", "title": "The spinlock guard gives mutual exclusion", "statement": "For any number of threads and every interleaving of the atomic steps of atomic_lock_guard construction and destruction on the same flag, at most one thread is inside the guarded region.", "quantifier": "any number of threads, all interleavings", "why_tests_cant": "Schedules are unbounded.", "anchors": ["include/obake/detail/atomic_lock_guard.hpp: atomic_lock_guard"]}
{"id": "C51", "title": "Printing a monomial shows exactly its non-zero exponents", "statement": "Streaming a monomial prints '1' iff it is the unit, otherwise the '*'-separated factors name or name**exponent of exactly the symbols with non-zero exponents in symbol order; distinct exponent vectors print differently whenever the (distinct) symbol names are non-empty, free of '*' and different from '1'.", "quantifier": "all symbol sets and compatible keys", "why_tests_cant": "Unbounded.", "anchors": ["include/obake/polynomials/packed_monomial.hpp: packed_monomial", "src/polynomials/packed_monomial.cpp", "src/polynomials/packed_monomial.cpp: key_stream_insert impl"]}
{"id": "C52", "title": "Printing a series shows its terms, and short texts determine the series", "statement": "Streaming a series writes '0' if it is empty and otherwise its terms in the order of iteration (the first 50, followed by an ellipsis, if there are more than 50), each with its sign, the absolute value of the coefficient and the monomial, omitting unit coefficients and monomials; coefficients that are series with several terms are bracketed. Two integer or rational series over the same symbols with at most 50 terms that print the same text, plain or TeX, are the same polynomial, provided that the symbol names contain no '+', '-' or '*' and do not start like a number (TeX: contain no '}'). The header shows the symbol set, the number of terms and, for power series, the truncation, and determines symbol set and truncation if no name contains a quote.", "quantifier": "all series, key types, symbol sets with printable names, coefficient types printed as optional sign and unsigned text", "why_tests_cant": "Unbounded numbers of terms, coefficients and names; injectivity is a statement about pairs.", "anchors": ["include/obake/series.hpp: series_stream_terms_impl", "include/obake/series.hpp: series_default_cf_stream_insert_impl", "include/obake/series.hpp: series_stream_insert", "src/series.cpp: series_stream_single_term", "src/symbols.cpp: to_string", "include/obake/power_series/power_series.hpp: operator<<(tag)"]}
{"id": "C53", "title": "TeX output of a monomial shows exactly its exponents", "statement": "The TeX text of a monomial is the product of the factors {name}^{e} with positive exponents over that of the factors with negative exponents (a fraction only if there are any), omitting exponent 1 and printing 1 for an empty product; distinct exponent vectors have distinct texts if the distinct symbol names contain no closing brace.", "quantifier": "all symbol sets and compatible keys of both monomial types", "why_tests_cant": "Unbounded; injectivity is a statement about pairs.", "anchors": ["src/polynomials/packed_monomial.cpp: packed_monomial_tex_stream_insert", "include/obake/polynomials/d_packed_monomial.hpp: key_tex_stream_insert"]}
{"id": "C54", "title": "The randomised choice of the number of tables never affects a product", "statement": "x * y and truncated_mul(x, y, ...) choose the number of tables of the result from random trials and floating-point estimates. For every sequence of random numbers, every rounding and every way of splitting the trials among threads: the estimation never reads out of range, never overflows, counts exactly the products kept by the truncation, returns a positive estimate of at most 3/2 of the number of pairs of terms (the exact number of products if no two products coincide and no term is cut off), and the product is the (truncated) product of the operands; the multiplication succeeds whenever monomials fit and the sizes are below explicit bounds (e.g. fewer than 8*10^16 pairs of terms), and the result has at most max(1, nx*ny*B/4096) tables, B being a bound for the bytes per term.", "quantifier": "all operands, truncations, random choices, floating-point results, splittings of the trials, schedules of the multiplication", "why_tests_cant": "Tests see one seed, one splitting and small operands; exceptions of the estimation need huge operands.", "anchors": ["include/obake/polynomials/polynomial.hpp: poly_mul_estimate_product_size", "include/obake/polynomials/polynomial.hpp: poly_mul_impl_estimate_average_term_size", "include/obake/polynomials/polynomial.hpp: poly_mul_impl_mt_hm"]}
{"id": "C55", "title": "Polynomials with polynomial coefficients, to any depth", "statement": "A polynomial can have polynomials as coefficients, to any depth. At every depth, sums, differences, products, negation, comparison, the test for zero, products, sums, differences and comparisons with an object of any lower rank compute in the iterated polynomial ring, in which the object is a constant; an object of lower rank converts into the constant polynomial, and back, the latter failing with invalid_argument exactly for polynomials that are not constant; diff(x, s) is the derivative of the multiplied out polynomial even if s occurs in the keys of several levels; integrate(x, s) is an antiderivative of the multiplied out polynomial, without terms of degree 0 in s, and throws if a coefficient depends on s or a term has the exponent -1; evaluate gives the value of the multiplied out polynomial, and subs(x, sm) represents the multiplied out polynomial with the symbols of sm replaced, even if they occur in the keys of several levels; trim keeps the value and leaves the symbols that occur; degree is the maximum of the degrees of the terms of the multiplied out polynomial before like terms are collected. Exceptions are those of the innermost coefficients, overflows, or invalid_argument for missing symbols.", "quantifier": "all nesting depths, all operands in a legal state, coefficient types, key types (which may differ from level to level), segmentations, iteration orders, schedules of the multiplications in all levels", "why_tests_cant": "Tests use depth two and a few polynomials; the claim is about all depths and all schedules of nested parallel multiplications.", "anchors": ["include/obake/series.hpp: series_default_mul_impl, series_in_place_addsub, negate, is_zero, series_equal_to_impl, series_default_degree_impl, series_default_evaluate_impl, series_default_trim_impl", "include/obake/polynomials/polynomial.hpp: poly_mul_impl_switch, poly_diff_impl, poly_integrate_impl, poly_subs_impl"]}
{"id": "C56", "title": "diff and integrate are correct when the coefficient type changes", "statement": "If the derivative or quotient of coefficients has another type than the coefficients (e.g. integer coefficients, whose products with exponents are rationals), diff(x, s) still represents the partial derivative of x, in agreement with the algorithm used when types do not change, and integrate(x, s) the sum of the integrals of the terms, whose derivative is x when division is exact; the symbols are those of x (and s), or none if x is zero; a coefficient that depends on s, the exponent -1 and exponents that do not fit are rejected, and these are the only reasons to throw besides exceptions of the coefficients.", "quantifier": "all polynomials in a legal state, symbols, coefficient types with values in a commutative ring, segmentations and iteration orders", "why_tests_cant": "Tests use a few polynomials; the claim is an identity of polynomials over all operands and coefficient types.", "anchors": ["include/obake/polynomials/polynomial.hpp: poly_diff_impl (algo == 1), poly_diff_algorithm_impl", "include/obake/polynomials/polynomial.hpp: poly_integrate_impl (algo == 1), poly_integrate_algorithm_impl"]}
{"id": "C57", "title": "Aliasing, moved operands and caught exceptions never corrupt a program's values", "statement": "A program is a sequence of assignments, moves, swaps, negations, sums, differences, in-place additions, products with scalars and polynomials, in which any operands may be the same variable and may be passed as lvalues or with std::move. Every such program that does not read a variable after it was passed with std::move (without assigning to it first) computes in its variables the polynomials that the same program computes on mathematical polynomials: e.g. x = move(x) + move(x) doubles x and x -= move(x) empties it. All objects are legal after every statement, also if it throws, with one exception: the target of a copy assignment that throws (the copying of a table may fail) need not be (it is if both objects have the same symbol set and number of tables). A statement modifies no object besides its target and its rvalue operands, and if it throws, no object besides its rvalue operands, an object it updates in place and the target of a copy assignment - in particular not the target to which the result of an operator or function would have been assigned - so that a program may catch the exception and go on.", "quantifier": "all programs (any number of variables and statements, all aliasing patterns and value categories of operands), all initial values in a legal state, all coefficient and key types, all points at which coefficient operations, insertions and copies of tables throw, all orders in which a copied table holds its terms", "why_tests_cant": "Tests check some self-operations; the combinations of aliasing, value categories, merging of symbol sets and points at which an exception occurs are unbounded.", "anchors": ["include/obake/series.hpp: series_default_addsub_impl (merge_with_identical_ss, term_merger), series_rref_clearer, series_sym_extender", "include/obake/series.hpp: series_default_in_place_addsub_impl, operator-, series_default_mul_impl, series_default_div_impl, move constructor and assignment, swap"]}
{"id": "C58", "title": "Expressions over polynomials have the value of ordinary algebra, and == decides it", "statement": "Every expression built from polynomials with unary minus, +, -, *, pow and diff evaluates - whatever the thread schedules of the products, the contents left in the pow cache by earlier calls and the order in which operands are evaluated - to a legal polynomial that equals the value of the expression in the polynomial ring, or throws an exception of the coefficients, an overflow or an out-of-range error. Two results compare equal with == exactly if the expressions have the same value; in particular every identity of commutative rings with derivations (distributivity, binomial formulas, the Leibniz rule, ...) is observed by ==, for all operands. All symbols of the result are symbols of operands; if the operands can be evaluated at a point, the result of an expression without derivatives can be evaluated there and its value is that of the expression at the values of the operands.", "quantifier": "all expressions, all operands in a legal state, all schedules and cache histories, all coefficient types with values in a commutative ring and all key types", "why_tests_cant": "Tests compare some pairs of expressions on some operands; the claim covers all expressions and all algebraic identities between them.", "anchors": ["include/obake/series.hpp: series_default_addsub_impl, series_equal_to_impl, series_pow_from_cache", "include/obake/polynomials/polynomial.hpp: poly_mul_impl, pow_poly_impl, poly_diff_impl"]}
{"id": "C59", "title": "Expressions over power series do not depend on where truncation happens", "statement": "In an expression built with unary minus, +, -, * and pow from power series, some untruncated and the others truncated at the same limit, the result is truncated at the limit iff a truncated operand occurs, and then its terms are exactly the terms within the limit of the exact value of the expression, computed with any polynomials of which the operands are the truncations (without terms of negative degree). Hence ring identities are observed by == on the results, and computing with a higher limit first and truncating the result in the end gives the same power series.", "quantifier": "all expressions, all operands in a legal state with nonnegative degrees, all limits (total or partial degree), all schedules and cache histories", "why_tests_cant": "Intermediate truncations occur at every operation; that they never lose a term of the result is an algebraic fact about all operands and expressions.", "anchors": ["include/obake/power_series/power_series.hpp: ps_addsub_impl, series_mul, pow, set_truncation_impl"]}
{"id": "C60", "title": "Concurrent pow() calls neither deadlock nor run forever", "statement": "Any number of threads may call pow() and clear the pow cache concurrently. Whenever calls are under way, at least one of them can advance; without new calls, the calls under way complete after a bounded number of steps (linear in the exponents) under every schedule, also if multiplications or comparisons throw. This assumes that no call is made by a thread while it computes a product for another pow() call: if the thread, waiting for the TBB subtasks of the product, executes a task that calls pow(), it can wait forever for the mutex it holds itself, and then all later calls of all threads wait too.", "quantifier": "all numbers of threads, calls, exponents and schedules, all outcomes of multiplications and comparisons", "why_tests_cant": "Deadlocks depend on the schedule; a test sees a few schedules.", "anchors": ["include/obake/series.hpp: series_pow_from_cache, get_series_pow_map, clear_series_pow_map", "src/series.cpp: get_series_pow_map, clear_series_pow_map"]}
{"id": "C61", "title": "byte_size and table_stats report the contents", "statement": "byte_size(x) is the size of the series object and of its tables plus, for each term, the sizes of key, coefficient and padding, plus the size of the tag in place of its storage (modulo the range of size_t) - independently of how the parallel reduction splits the tables and of the order of the terms in them; series that have the same symbols, tag, number of tables and represent the same polynomial have the same byte_size if the sizes of coefficients depend only on their values. table_stats() reports the number of terms and tables and byte_size; the minimum and maximum number of terms per table are attained and bound all tables and the average.", "quantifier": "all series, numbers of tables, ways of splitting the parallel reduction, sizes of keys and coefficients", "why_tests_cant": "The splitting is chosen by the scheduler and the order of terms by the hash tables.", "anchors": ["include/obake/series.hpp: series_default_byte_size_impl, series::table_stats"]}
{"id": "C62", "title": "Substitution in power series", "statement": "subs(x, sm) on a power series x. With values that are not series, and no negative exponents of the substituted symbols, the result is a legal power series with the truncation of x (none if x has no terms) and is the exact result of the substitution, truncated. With power series as values (natural exponents in x, no terms of negative degree in the values; x and values truncated in the same way t or not at all), the result is a legal power series whose truncation is t exactly if x has a term and x or a value of one of its symbols is truncated, and whose terms are exactly the terms within its truncation of the exact substitution of the exact (untruncated) values in x, whatever the state of the cache of pow and the schedules of the multiplications. If x has a term and two of x and the values of its symbols are truncated in different ways, subs throws. The result of the substitution in a power series without terms is never truncated.", "quantifier": "all power series, maps of values, truncations, orders of terms, histories of pow, schedules of the products", "why_tests_cant": "Only the first product is truncated by the sum and the others by their factors, depending on the order of terms in the hash tables; products are scheduled concurrently and powers come from a cache.", "anchors": ["include/obake/power_series/power_series.hpp: subs, ps_in_place_addsub_impl, series_mul", "include/obake/polynomials/polynomial.hpp: poly_subs_impl"]}
{"id": "C63", "title": "Programs over power series", "statement": "A program over power-series objects - copies, moves, swaps, negations, additions and subtractions of lvalues and rvalues that may alias, += and -= (also x += x), additions of scalars, products and quotients by scalars, products, powers, diff, integrate, trim, add_symbols, subs of values that are not series (for unsigned exponents), constants and generators, setting and removing truncations, truncate - in which each statement's exception is caught: every variable that has a specified value is a legal power series holding the polynomial and the truncation that the program computes on truncated polynomials. A statement whose operands are truncated in different ways throws std::invalid_argument and changes no object, not even rvalue operands; any other statement throws only exceptions of the coefficients, overflow_error or safe_cast_failure, after which only its rvalue operands, the object it updates in place and the target of a copy assignment lose their specified value, and all objects except the target of a copy assignment that throws are still legal series (they can be assigned to and destroyed). A statement changes no object other than its target and its rvalue operands.", "quantifier": "all programs, stores, aliasing patterns, value categories, exceptions thrown by the coefficients and by copies of tables, schedules of the products, histories of pow", "why_tests_cant": "Aliasing, value categories, truncations and points of failure combine without bound.", "anchors": ["include/obake/power_series/power_series.hpp: ps_addsub_impl, ps_in_place_addsub_impl, set_truncation, unset_truncation, truncate, series_mul", "include/obake/series.hpp: series_default_addsub_impl, series_default_in_place_addsub_impl"]}
{"id": "C64", "title": "TeX output of power series", "statement": "tex_stream_insert writes the terms of a power series (as for any series, C52) followed, if it is truncated, by + O( > d ) or + O( > d ; symbols ). Two power series, of any length and over any symbols, with the same TeX text have the same truncation, and integer or rational power series over the same symbols with at most 50 terms and the same TeX text are the same polynomial with the same truncation, provided that symbol names contain no sign, closing brace or space and names in a partial truncation no space or comma. As a coefficient of another series, a power series is printed with its truncation, in parentheses exactly if it has more than one term.", "quantifier": "all power series, key types, truncations, printable names", "why_tests_cant": "Injectivity of the text over all series and truncations.", "anchors": ["include/obake/power_series/power_series.hpp: tex_stream_insert", "include/obake/series.hpp: series_stream_terms_impl", "include/obake/tex_stream_insert.hpp: tex_stream_insert"]}
{"id": "C65", "title": "Interned symbol sets and truncations behave like values", "statement": "Series and power-series tags hold their symbol sets and truncations in interned, reference-counted flyweights, which are compared by address. After every history of constructions, copies, assignments, swaps and destructions of such objects, and whatever the hashes and the number of buckets are, every object still gives the value an ordinary variable would have; two objects compare equal exactly if their values are equal (so the tests for identical symbol sets and for equal truncations decide what they say); equal truncations have equal hashes; and the table holds each value of a live object exactly once and nothing else, so that nothing leaks and nothing is freed early.", "quantifier": "all histories of operations, objects, values, hash functions, bucket counts", "why_tests_cant": "Sharing, collisions and premature release depend on the history and on the hash values.", "anchors": ["include/obake/symbols.hpp: ss_fw", "src/symbols.cpp: ss_fw_hasher", "include/obake/power_series/power_series.hpp: trunc_t_hasher, trunc_t_comparer, trunc_t_fw, tag"]}
{"id": "C66", "title": "Programs with control flow compute with polynomials", "statement": "A program over variables that hold polynomials (or power series) – assignments, moves, arithmetic and in-place statements, calls of the library's functions, powers computed with the global cache of powers and explicit clearing of that cache, branches and loops whose conditions depend on observed properties of the series (equality, size, degree, values), thrown exceptions and handlers – does exactly what the same program over mathematical polynomials (truncated polynomials) may do: each outcome after any number of steps agrees with a possible outcome over polynomials, every object remains legal, more steps do not change the outcome of a program that has ended, and a program whose mathematical counterpart always ends also ends. If the program satisfies the rules of definite assignment – no variable is read that may have been moved from or left unspecified by an exception –, then its outcome is always one of the specified ones, and the variables that the rules list hold the right polynomials after success and after an exception; its objects can be destroyed.", "quantifier": "all programs, initial stores, values of the other variables, numbers of steps, earlier uses of the power cache, and exceptions thrown by any operation", "why_tests_cant": "there are infinitely many programs, and loops of unbounded length; exceptions may be thrown at any operation and the results of powers may come from a cache filled by any earlier computation", "anchors": ["include/obake/series.hpp: series, pow (cache 1594-1713, 1760-1830), operator==, degree", "src/series.cpp: clear_series_pow_map", "include/obake/polynomials/polynomial.hpp: pow, diff, subs, integrate", "include/obake/power_series/power_series.hpp: addsub, set_truncation"]}
{"id": "C67", "title": "No internal assertion fails and no undefined behaviour occurs", "statement": "For legal series (and monomials compatible with their symbol sets), whatever their terms, symbol sets and numbers of tables, none of the operations of the library fails one of its internal assertions, reads an array out of bounds or performs an undefined arithmetic operation: addition, in-place operations, comparison, multiplication by either implementation under any schedule of its threads (including the assertions that the operands are segmented correctly, that every product belongs to its table and that exactly size(x)*size(y) products are computed), powers after any use of the cache, calculus, degrees, truncation, evaluation, trimming; and whole programs over polynomials and power series, however long they run, that do not read unspecified values. Abnormal outcomes are exceptions only, provided the operations on coefficients behave.", "quantifier": "all legal operands, key types, environments, schedules, cache histories and programs of any length", "why_tests_cant": "an assertion is only checked on the inputs that are run; segmentation, hash distribution, schedules and cache contents vary without bound", "anchors": ["include/obake/polynomials/polynomial.hpp: verify_seg (1141-1176), n_mults (1566-1573), assertions of poly_mul_impl_mt_hm and poly_mul_impl_simple", "include/obake/series.hpp: assertions of series_add_term_table, series_sym_extender, series_pow_from_cache, series_default_addsub_impl", "include/obake/polynomials/packed_monomial.hpp: assertions of key and monomial functions"]}
{"id": "C68", "title": "Polynomials with C++ integers as coefficients compute exactly or modulo a power of two", "statement": "Let the coefficients of the operands have the C++ integral types a and b. Sums, differences, products (by either implementation, under any schedule), products with and quotients by a scalar have coefficients of the type of the corresponding C++ expression on coefficients; if that type is int or a wider signed type, a result that is computed without undefined overflow has exactly the coefficients of the mathematical result, and if it is unsigned, exactly those coefficients modulo 2^bits, and nothing is undefined. In-place operations and negation of the narrow types are exact modulo 2^bits. Terms whose coefficient becomes zero (in the type) are absent. Comparison of polynomials with different integral coefficient types compares coefficients as C++ does.", "quantifier": "all integral types (other than bool) of any width as coefficient types, all legal operands, segmentations, schedules and exceptions", "why_tests_cant": "the pairs of types, and the values at the borders of the ranges at which promotions, conversions and wrap-around matter, cannot be enumerated for all polynomials", "anchors": ["include/obake/series.hpp: Cf (112-127), series_add_term_table, series_default_addsub_impl, series_default_in_place_addsub_impl, series_default_mul_impl, series_default_div_impl, series_equal_to_impl", "include/obake/math/negate.hpp: negate_impl", "include/obake/math/is_zero.hpp: is_zero_impl", "include/obake/polynomials/polynomial.hpp: polynomial_mul"]}
{"id": "C69", "title": "Operations on polynomials with C++ integer coefficients are defined and exact if nothing overflows", "statement": "Let the coefficients of the operands, and of the exact result, be representable in the C++ integral type of the coefficients of the result. Then sums, in-place sums and differences, negation, multiplication and division by a scalar have no undefined behaviour, throw only for reasons unrelated to coefficients (memory, representability of exponents, table sizes), and compute exactly the mathematical result. For a difference x - y the coefficients of y - x must be representable as well. For a product (by either implementation, under any schedule, truncated or not) it is sufficient that for each monomial the sum of the absolute values of the products of coefficients that contribute to it is representable, in particular that the product of the sums of the absolute values of the coefficients of the operands is.", "quantifier": "all integral types as coefficient types, all legal operands whose result is representable, segmentations, orders of the terms, schedules and allocation failures", "why_tests_cant": "undefined behaviour at intermediate sums depends on the order of the terms in the hash tables and on the schedule, and silently gives wrong coefficients; no set of inputs covers all polynomials at the borders of the ranges", "anchors": ["include/obake/series.hpp: series_add_term_table, series_default_addsub_impl, series_default_in_place_addsub_impl, series_default_mul_impl, series_default_div_impl, negate", "include/obake/polynomials/polynomial.hpp: poly_mul_impl_mt_hm, poly_mul_impl_simple"]}
{"id": "C70", "title": "The class invariant does not depend on the arithmetic of the coefficients", "statement": "Whatever the operations on coefficients compute (rounding, NaN, infinities, values that are not equal to themselves) and whichever exceptions they throw, every operation on series leaves objects that satisfy the class invariant: keys are unique, valid for the symbol set and in the right segment, symbols are sorted, and is_zero() is false for every stored coefficient. This holds for add_term, conversions, x + y, x - y, x += y, x -= y (both operands, also when x and y are the same object and also after an exception), negate(), multiplication and division by scalars, addition of scalars, filter(), filtered() and add_symbols(). Conversions and negate() are assumed to map nonzero coefficients to nonzero ones.", "quantifier": "all coefficient types and all behaviours of their operations, all legal operands, segmentations, orders of the terms, allocation failures and exceptions", "why_tests_cant": "tests use a few coefficient types with well-behaved values; the claim ranges over all behaviours of the coefficient operations, including the exceptional ones", "anchors": ["include/obake/series.hpp: series_add_term_table, series_sym_extender, series_default_addsub_impl, series_default_in_place_addsub_impl, series_default_mul_impl, series_default_div_impl, negate, filter, filtered, add_symbols"]}
{"id": "C71", "title": "Operations on series act coefficient by coefficient, for any coefficient type", "statement": "For arbitrary coefficient types (floating-point numbers in particular) the results of add_term, conversions, x + y, x - y, x += y, x -= y, negate(), multiplication and division by scalars and addition of scalars are obtained by applying the operation of the coefficient type once per monomial: a monomial that occurs in both operands gets the sum or difference of the two coefficients, one that occurs in only one of them gets that coefficient or its opposite, and the term is absent iff is_zero() is true for the result. If addition is commutative and b - a is the opposite of a - b (IEEE arithmetic, rounding to nearest), which operand is larger, how the tables are segmented and ordered, and whether the binary or the in-place operator is used cannot be observed. x == y iff the tags are equal and the coefficients of all monomials compare equal; so x == x is false iff a coefficient is not equal to itself. Multiplication by a zero scalar gives an empty series, also if there are infinities or NaNs among the coefficients.", "quantifier": "all coefficient types, all legal operands with possibly different symbol sets and coefficient types, segmentations and orders of the terms", "why_tests_cant": "rounding makes the result depend on the order of operations, so that only a proof for all operands and table orders shows that there is exactly one operation per monomial", "anchors": ["include/obake/series.hpp: series_add_term_table, series_default_addsub_impl, series_default_in_place_addsub_impl, series_default_mul_impl, series_default_div_impl, negate, series_cmp_identical_ss, series_default_equal_to_impl"]}
{"id": "C72", "title": "Products accumulate each pair of terms exactly once, for any coefficient type", "statement": "For arbitrary coefficient types (floating-point numbers in particular) the coefficient of a monomial in x * y is obtained as follows: the pairs of a term of x and a term of y whose monomials multiply to it are taken in some order, each exactly once; the coefficients of the first pair are multiplied, and the products of the others are accumulated with fma3() or += one after the other; the term is absent iff there is no such pair or is_zero() is true for the final value. If x has more terms than y then y * x is computed instead, which cannot be observed when the multiplication of coefficients is commutative. truncated_mul() and the products of power series do the same for the monomials within the truncation, and the other monomials do not occur. This holds for the simple and for the multi-threaded algorithm, for all schedules. In particular a coefficient to which a single pair contributes is rounded once, and products by a single term act coefficient by coefficient. The result satisfies the class invariant, and exceptions are only those of the coefficients and of memory allocation, the detection of monomials that do not fit, degree overflow, and tables that would be too large.", "quantifier": "all coefficient types and behaviours of their operations, all operands with possibly different symbol sets and coefficient types, all truncations, segmentations, sort orders, numbers of tables and thread schedules", "why_tests_cant": "with rounding the result depends on the order of accumulation, which changes with sizes, hashes and the number of cores, so a test can only compare with tolerances; a missed or duplicated pair with a small product would stay unnoticed", "anchors": ["include/obake/polynomials/polynomial.hpp: poly_mul_impl_mt_hm, poly_mul_impl_simple, poly_mul_impl_identical_ss, poly_mul_impl, poly_mul_impl_switch, truncated_mul", "include/obake/power_series/power_series.hpp: series_mul"]}
{"id": "C73", "title": "Existence and types of the operations on (nested) series", "statement": "Describe a series type by its levels (key and tag type, outermost first) and the scalar type at the bottom. (1) T is constructible from (a series T: assignable from) U iff the key types of the common innermost levels agree and the scalar types convert; tags do not matter; a scalar T must also be constructible from int if U is a series. (2) T + U and T - U exist iff the levels of one operand are the innermost levels of the other one and the scalar types have a sum which is a coefficient type constructible from both; the result has the levels of the outer operand and the scalar type of the sum, so that its rank is the larger rank and it can be constructed from both operands; the order of the operands of + and the placement of brackets do not matter. (3) x += y, with x a series, exists iff the keys of the operands are equal, the outermost tags are equal and the scalar types convert, or y has lower rank, its keys are the innermost keys of x and the scalar types convert, or y has higher rank, x + y exists and the scalar of x is constructible from that of the sum; in particular it exists where x + y has the type of x. (4) T * U exists only if the levels of one operand are the innermost ones of the other one, each of these being a polynomial, or a power series over coefficients without degree; the result has the levels of the outer operand and the scalar type of the product; with the usual arithmetic conversions it exists in all these cases; the order of the operands does not matter; x *= y exists iff x * y does and the scalar of x is constructible from that of the product (and from int, if x is a number). (5) There is no division by a series; division by a scalar and exponentiation by a scalar keep the levels. (6) T == U exists iff the levels of one operand are the innermost ones of the other one and the scalars can be compared.", "quantifier": "all pairs (triples) of types built from scalar types by any number of series levels with any key and tag types, and all answers to the questions about scalar types, keys and tags", "why_tests_cant": "there are infinitely many types, and the selection of an operation at one level asks for the existence of operations at the level below, so that static assertions about a handful of types say nothing about deeper or mixed nestings", "anchors": ["include/obake/series.hpp: is_cf, series_rank, series_generic_ctor_algorithm_impl, is_series_convertible, series_default_addsub_algorithm_impl, series_default_in_place_addsub_algorithm_impl, series_default_mul_algorithm_impl, series_default_div_algorithm_impl, series_default_pow_algorithm_impl, series_equal_to_algorithm_impl", "include/obake/polynomials/polynomial.hpp: poly_mul_algorithm_impl", "include/obake/power_series/power_series.hpp: any_p_series, ps_mul_algo"]}
{"id": "C74", "title": "Period and uniformity of the random number generator", "statement": "The generator that drives the size estimation of products: from every non-zero state the sequence of states returns to its start after exactly 2^128 - 1 calls of next() (and multiples) and runs through all non-zero states; the zero state is never left nor reached; states are never lost (next is injective). Over a period, random<Int>() for integers of at most 64 bits returns every value the same number of times, 2^(128-w), except 0, which is returned once less. random<Int>() takes the low bits of one value of next() for types of at most 64 bits and, for wider types, concatenates one value per 64 bits, the first one the most significant. For 128-bit integers the documented uniformity fails: some values are never returned. The seeds used in the library are non-zero (that of the term size estimation if one operand has less than 2^55 terms).", "quantifier": "all 2^128 states, all numbers of calls, all integer widths up to 64 bits, all values", "why_tests_cant": "A period of 2^128 - 1 steps cannot be enumerated; a wrong rotation or shift constant gives plausible numbers but short cycles.", "anchors": ["include/obake/detail/xoroshiro128_plus.hpp: xoroshiro128_plus::rotl, next, random", "include/obake/polynomials/polynomial.hpp: poly_mul_impl_estimate_average_term_size, poly_mul_estimate_product_size (seeds)"]}
{"id": "C75", "title": "Derivatives, integrals, trimming and truncation for arbitrary coefficients", "statement": "With coefficients that obey no algebraic law (floating-point numbers with rounding, infinities and NaN): diff(x, s) gives for each monomial the sum, in some order, of exactly the derivative of its coefficient, its coefficient multiplied by the exponent 0 if s does not occur in it, and the coefficient of the monomial times s multiplied by its exponent; if derivatives of coefficients and products by zero are zero, it is exactly the product of one coefficient by one exponent, rounded once. integrate(x, s) divides each coefficient once by the new exponent, or throws if a coefficient depends on s or an exponent is -1. trim(x) trims each coefficient once and removes exactly the unused symbols; truncate_degree and truncate_p_degree remove exactly the terms of higher degree and do not touch the others. All results satisfy the class invariant, and terms are missing only if is_zero returns true.", "quantifier": "all series satisfying the class invariant, all symbols, limits and segmentations, all behaviours of the coefficient operations", "why_tests_cant": "Rounding, overflow and NaN make results depend on how often and in which order operations are applied; tests compare a few values for which all orders agree.", "anchors": ["include/obake/polynomials/polynomial.hpp: poly_diff_impl (algorithm 2), poly_integrate_impl, truncate_degree, truncate_p_degree", "include/obake/series.hpp: trim, filter"]}
{"id": "C76", "title": "Powers for arbitrary coefficients", "statement": "With coefficients that obey no algebraic law: pow(x, n) of a polynomial with several terms, n natural and below 2^32, is the result of repeated multiplication (((1*x)*x)*...)*x, each product being a product in the sense of C72, whatever pow calls and cache clearings happened before and whatever other threads do, provided that numbers that compare equal are identical; in general the base may be replaced by an argument of an earlier call whose coefficients compare equal. A polynomial with one term gives the power of its coefficient with the power of its monomial, an empty one the power of zero. pow(x, 1) has the coefficients of x if products with one are exact. Results satisfy the class invariant. A base with a coefficient that is not equal to itself (NaN) is never found in the cache, so each call adds an entry.", "quantifier": "all series satisfying the class invariant, all integer exponents, all histories of calls, all interleavings of threads, all behaviours of the coefficient operations", "why_tests_cant": "The outcome depends on the state of a process-wide cache, that is on all earlier calls, and on rounding, NaN and precision of the coefficients.", "anchors": ["include/obake/series.hpp: series_pow_from_cache, series_default_pow_impl", "include/obake/polynomials/polynomial.hpp: pow_poly_impl", "src/series.cpp: get_series_pow_map, clear_series_pow_map"]}
{"id": "C77", "title": "Power series for arbitrary coefficients", "statement": "With coefficients that obey no algebraic law (floating point with rounding, NaN and infinities): every operation on legal power series (class invariant, all terms within the truncation) that returns gives a legal power series with the common truncation of its operands. The coefficient of a monomial within the truncation is the one that the operation on polynomials gives (x + y, x - y, in place, also x += x, with scalars on either side, negation, products, powers by repeated truncated multiplication after any history and under concurrency, derivatives, integrals), and there is no term outside it. Operands with different truncations throw invalid_argument and are left as they were. set_truncation removes exactly the terms outside, or nothing if the degree cannot be converted, or empties the series if a degree overflows.", "quantifier": "all legal power series, truncations, scalars, exponents, histories of pow calls, schedules and behaviours of the coefficient operations", "why_tests_cant": "The claim ranges over all series, truncations and rounding behaviours, and the result of pow depends on the history of a process-wide cache.", "anchors": ["include/obake/power_series/power_series.hpp: ps_addsub_impl, ps_in_place_addsub_impl, series_mul, pow, diff, integrate, set_truncation, truncate"]}
{"id": "C78", "title": "Evaluation and substitution for arbitrary coefficients and values", "statement": "With coefficients and values that obey no algebraic law (floating point with rounding, NaN and infinities): evaluate(x, sm) throws invalid_argument if a symbol has no value, and otherwise adds to 0, for each term exactly once and in some order, the product of the value of the monomial, computed as ((1*pow(u0,e0))*pow(u1,e1))*... in the order of the symbols, by the value of the coefficient; series with the same terms give sums of the same products. subs(x, sm) with numbers gives for each remaining monomial the sum, in some order, of exactly one rounded product for each term of x that reduces to it; with series as values it adds, for each term once, the product of the value of the monomial, the coefficient and the remaining monomial, powers being computed by pow whatever its cache contains and products by the parallel multiplication under every schedule. Results satisfy the class invariant; terms are missing only if is_zero returns true. For power series the result is legal, clashing truncations throw, and the coefficients within the truncation of the result are those sums.", "quantifier": "all series satisfying the class invariant, all maps of values, all histories of pow calls, all schedules of the multiplications, all behaviours of the operations on coefficients and values", "why_tests_cant": "Rounding, overflow and NaN make results depend on how often and in which order operations are applied, and substitution of series depends on a process-wide cache and on thread schedules.", "anchors": ["include/obake/series.hpp: evaluate", "include/obake/polynomials/polynomial.hpp: poly_subs_impl", "include/obake/polynomials/packed_monomial.hpp: key_evaluate, monomial_subs", "include/obake/polynomials/d_packed_monomial.hpp: key_evaluate, monomial_subs", "include/obake/power_series/power_series.hpp: subs"]}
{"id": "C79", "title": "Existence and types of diff, integrate, evaluate, subs and degree", "statement": "For series types nested to any depth with arithmetic coefficient types: diff(x, s) exists iff the keys of all levels are differentiable, and has the levels of x and the common arithmetic type of the coefficients and of the exponents of all levels; a second derivative has the type of the first; derivatives are computed by term insertion iff that is the type of x. integrate(x, s) exists iff the outer keys are integrable and the inner ones differentiable, and takes the exponents of the outer level only into account. evaluate(x, sm) has the levels of the values and the common type; subs(x, sm) requires that the levels of the values nest with those of x, and has the levels of the outer one. degree(x) exists iff some level has a degree, and has the common type of the degrees. evaluate() and subs() always exist: with values that cannot be raised to the exponents (e.g. C++ integers) or that do not nest with x they return a copy of x unchanged, at whatever level this happens.", "quantifier": "all series types (any nesting, keys, tags), all value types, all answers of the traits on scalar types that form a family with common types", "why_tests_cant": "The answers are computed by recursion over types; there are infinitely many nested types, and tests check a few.", "anchors": ["include/obake/polynomials/polynomial.hpp: poly_diff_algorithm_impl, poly_integrate_algorithm_impl, poly_subs_algorithm_impl", "include/obake/series.hpp: series_default_evaluate_algorithm_impl, series_default_degree_algorithm_impl", "include/obake/polynomials/packed_monomial.hpp: pm_key_evaluate_algorithm_impl", "include/obake/polynomials/d_packed_monomial.hpp: dpm_key_evaluate_algorithm_impl", "include/obake/math/evaluate.hpp: evaluate_impl", "include/obake/math/subs.hpp: subs_impl", "include/obake/power_series/power_series.hpp: diff, integrate, subs"]}
{"id": "C80", "title": "Expressions whose operands have different nesting depths", "statement": "In an expression built from unary -, +, -, *, pow and diff, the operands may be coefficients, polynomials, polynomials with polynomial coefficients, and so on, to any depths and in any mixture (also at intermediate results). The expression compiles, and its type is that of the deepest operand. Whatever the schedules of the multiplications and the contents of the power caches, its result is in a legal state, has only symbols of the operands and is the value of the expression in the iterated polynomial ring, in which an operand of lower depth is a constant; multiplied out it is the value of the same expression for the multiplied out operands. Two results of possibly different depths compare equal iff the values are equal; in particular all identities of commutative rings with derivations hold. The only exceptions are those of the coefficients, overflow_error and safe_cast_failure.", "quantifier": "all expressions, all depths, all operands in legal states, all schedules and cache histories, any key types per level, any commutative coefficient ring with derivations", "why_tests_cant": "The operators for each combination of depths are different instantiations that call each other recursively; expressions, depths and schedules are unbounded.", "anchors": ["include/obake/series.hpp: series_rank, series_default_addsub_impl, series_default_mul_impl, series_equal_to_impl, series_default_pow_impl, negate", "include/obake/polynomials/polynomial.hpp: series_mul, pow_poly_impl, poly_diff_impl"]}
{"id": "C81", "title": "diff and integrate of power series whose coefficient type changes", "statement": "For a power series whose derivatives or integrals have coefficients of another type (e.g. p_series<packed_monomial<long>, int>): diff(x, s) is a legal power series that represents the exact derivative, with the symbols and the truncation of x (none if x is zero). integrate(x, s) satisfies the class invariant of series and carries the truncation of x; all its terms within the truncation are those of the exact integral, so that truncate(integrate(x, s)) is the truncated exact integral. integrate itself does not truncate: the result is the exact integral without at most one term (the integral of the term visited first, if it exceeds the truncation), hence it has terms beyond its truncation whenever the exact integral has two such terms. Both throw only for the coefficients, coefficients depending on s, exponents -1, exponents or degrees that do not fit.", "quantifier": "all legal power series, all truncations, all symbols, all coefficient types with values in a commutative ring, all monomial types", "why_tests_cant": "The effect of the truncation depends on the iteration order of the hash table and on the number of terms beyond the truncation; the claims range over all series and coefficient types.", "anchors": ["include/obake/power_series/power_series.hpp: diff, integrate, ps_in_place_addsub_impl, ps_addsub_impl", "include/obake/polynomials/polynomial.hpp: poly_diff_impl, poly_integrate_impl"]}
{"id": "C82", "title": "Destruction of series and the limit on table sizes", "statement": "In a debug build the destructor of a series does not fail an assertion iff the object was moved from, or it has 2^n tables (n its log2 segmentation, n at most the maximum), each with at most floor((2^64-1)/2^n) terms if there are several, no zero coefficient, no zero or incompatible key, and every term in the table given by the hash of its key. All objects that can be produced through the API meet this: the object after any history of member calls (whether they threw or not), the results of +, -, *, truncated products under any schedule, products and quotients by lower rank objects, negation, filter(ed), trim, add_symbols, conversions and loading what was saved, and both operands of x += y, x -= y, also after an exception. Hence the number of terms size() of a segmented series never wraps around. The same holds for all variables of a program of statements whose operands may be the same object and may be rvalues, also if it throws or catches exceptions, except for the target of a copy assignment that has thrown. It holds for programs with branches, loops, handlers and powers taken from the global cache as well, over polynomials and over power series, and then also for all bases and powers that are in the cache. A series that a failed load has left behind violates it.", "quantifier": "all series, all histories of calls, all operands within the limits, all coefficient and monomial types meeting the stated laws, all schedules of parallel multiplication, all exceptions thrown by coefficients and allocations", "why_tests_cant": "The limit on table sizes cannot be reached in a test, and the other conditions must hold after every history, every exception and every schedule.", "anchors": ["include/obake/series.hpp: series::~series, _get_max_table_size, series_add_term_table (sat_check_table_size), series_sym_extender, series::load", "include/obake/polynomials/polynomial.hpp: poly_mul_impl_mt_hm"]}
{"id": "C83", "title": "reserve()", "statement": "s.reserve(n) asks every table of s for room for m terms, where m is the least number such that all 2^k tables together have room for n terms (computed without overflow for every n and every segmentation). It throws iff some table cannot get the memory. Whether it throws or not, nothing observable changes except the order of the iteration: the terms, the number of terms, the symbol set, the segmentation, the tag and the results of find() are the same, and the series is legal.", "quantifier": "all series in any state, all n of type size_type, all segmentations, all failures of allocations at any table, all changes of the order of the tables", "why_tests_cant": "The outcome must not depend on the number of terms, on the segmentation, or on which table fails to allocate.", "anchors": ["include/obake/series.hpp: series::reserve"]}
