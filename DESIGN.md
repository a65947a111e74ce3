# Formal model of bluescarni/obake in Lean 4 — design

## Approach

* Every modelled C++ function is a total, computable Lean function.  C++ exceptions and undefined behaviour
  are outcomes: `Res α = Except Exc α`, with one constructor of `Exc` for each exception class used by the
  library, `Exc.user` for exceptions of coefficients/archives, and `Exc.ub` for undefined behaviour (signed
  overflow, out-of-bounds access, failed `assert`).  A theorem saying that a call returns `.ok v`, or that its
  exceptions satisfy some predicate that `Exc.ub` does not satisfy, therefore also says that no UB happens.
  Functions that change an object and may throw return `Mut α = Except (Exc × α) α`: the state of the object
  after an exception is part of the outcome.
* Machine integers are mathematical `Int`s with explicit wrap/overflow checks at every place where the C++
  computes in a machine type.  `KT` ranges over the four key types (`int`/`long`/`long long` as 32 or 64 bits,
  signed or unsigned); tables are extracted from src/kpack.cpp by `scripts/` into `Model/KpackTables.lean`.
* Hash tables are association lists; a table's iteration order is the list order, and every theorem about series
  holds for every order (`SeriesInv` does not constrain it; insertions put new elements at an arbitrary place,
  `CEnv.reord`).  Parallel sections are interleavings of worker steps (`Model/ParMul.lean`), parallel
  reductions/sorts are arbitrary partitions/permutations; the concurrent cache, the flyweight storage and the
  spinlock are labelled transition systems whose states are quantified over by induction on executions.
* Coefficients: an arbitrary C++ type with operations that may throw (`CEnv`, `MulOps`, …), related to an
  arbitrary commutative ring by `Val` (`EnvSpec`, `CfSpec`, `MulSpec`, `ArgSpec`): exact types such as
  mppp::integer, mppp::rational and nested polynomials, not floating point.  Where exception safety is the claim
  the operations may throw at any time.
* The specification of a polynomial is independent of the code: an element of Mathlib's
  `AddMonoidAlgebra R (Sym →₀ ℤ)` (finitely many symbols with integer exponents); `den ko V s` is the element
  represented by the series `s` (the sum over its terms).
* Keys are abstracted by `KeyOps` (the operations of a key type) and `KeyLaws` (their laws w.r.t. exponent
  vectors).  `packed_monomial` and `d_packed_monomial` are proved to satisfy the laws (`pmLaws`, `dpmLaws` in
  `Lemmas/KeyInst.lean`), so all theorems about series hold for both.

Layout: `lean/Verif/Model/*` (the model, citing file:lines of /repo), `lean/Verif/Spec/*` (small specifications),
`lean/Verif/Lemmas/*` (helper lemmas), `lean/Verif/Props/*` (one theorem group per property, with examples of
non-vacuity beside them).  `scripts/gen_manifest.py` regenerates MANIFEST.json.  `seeded/LOG.jsonl` records the
tests of the theorems against wrong programs.

## Per property: what is modelled, how it is proved

| id | model | proof |
|----|-------|-------|
| C01–C05 | `Model/Kpack`, `KpackTables`: `kpacker`/`kunpacker` state machines over the tables of src/kpack.cpp | table facts by kernel evaluation over the finite tables, lifted to all dividends by the magic-division lemma; induction on the components (mixed radix) |
| C06 | `Model/Integral`: safe_int_add/sub with promotion | case split, linear arithmetic, arbitrary bit width |
| C07 | safe_convert/safe_cast for integral pairs | same |
| C08 | to_string loops with the bounded buffer as state | induction on the digit loop |
| C09, C10 | `Model/Symbols`: std::set_union + compute_map loop; lower_bound walk | induction on lists, over an arbitrary linear order of symbols |
| C11–C19 | `Model/PackedMonomial` on top of the kpack model | reduction to mixed-radix lemmas of C01–C05 |
| C20 | hash as size_t cast | modular arithmetic |
| C21, C22 | `Model/DPackedMonomial` on top of kpack, list of packs | induction on packs |
| C23–C27 | `Model/Series`: segmented tables, add_term with all five template flags, histories as lists of operations | invariant by induction over histories, refinement to a map key → coefficient |
| C28–C31 | series add/sub/neg/scalar ops/equality | refinement to the monoid algebra |
| C32–C35 | `Model/PolyMul` (simple and segmented multiplication, truncation), `Model/ParMul` (workers, interleavings) | the visited pairs of indices are a permutation of all pairs; steps on disjoint tables commute; invariant over executions |
| C36 | `Model/Poly` (pow with its cache), `Model/PowConc` (threads, mutex) | invariant on the cache over all histories and all executions; availability of cached powers |
| C37–C42 | degree, evaluate, diff, integrate, filter, truncate, trim, add_symbols | refinement to the monoid algebra |
| C39 | `Model/Subs`: poly_subs_impl with its temporary polynomial, in-place additions, and the products of the two kinds of substituted values | loop invariant; refinement to a ring homomorphism |
| C43 | archive as a list of primitive values; `save`/`load` of keys, symbol sets, tags, series | round trip; loads do not look beyond what they consume, hence truncated archives are rejected |
| C44, C45 | generic constructors and conversions, make_polynomials | refinement |
| C46–C48 | `Model/PowerSeries`: the layer that manages the truncation | from C28–C42 |
| C49 | `Model/Flyweight`: transition system with threads, modules (DLLs), mutex, static-local guards, allocation that may fail, construction | invariant (a phase per type) by induction on executions |
| C50 | `Model/Spinlock`: transition system with flags, threads, guards, release/acquire views | invariant by induction on executions |
| C51 | key_stream_insert | induction on exponents |
| C52 | series_stream_terms_impl with the loop replacing `+-`, series_stream_single_term, cf_(tex_)stream_insert of series, header, tag | the replacement loop is a merge of signs on texts in which `+-` occurs only between terms; recovery by reading the text from the left (`CleanFrom`) |
| C53 | key_tex_stream_insert | induction on exponents |
| C54 | poly_mul_estimate_product_size, ..._average_term_size, choice of the number of segments | induction on trials and splittings; refinement of the multiplication with an arbitrary estimate |
| C55 | series operators as coefficient operations, for every rank (Model/Nested.lean); diff, integrate, evaluate, subs (values that are not series), trim, degree of nested series; construction from, arithmetic and comparison with objects of any lower rank, conversion to a lower rank | induction on the rank: series satisfy the requirements on coefficients (`nest_spec`), iterated polynomial rings, multiplying out as a ring homomorphism |
| C56 | algorithm 1 of `diff` and `integrate` (Model/Calculus1.lean), with all six coefficient types | loop invariant on the accumulated polynomial, built on the theorems on scalar products and in-place addition |
| C57 | stores of series objects; statements with lvalue/rvalue operands that may alias (Model/Program.lean): copy and move assignment, swap, negation, addition, in-place addition, scalar product and quotient, sums with objects of lower rank, in-place functions (`negate`, `truncate_degree`, `x += 1`), calls taking references to const (`diff`, `integrate`, `subs`, `trim`, `add_symbols`, products), constructions | each operator on objects refines the operator on values (`addSubSt_eq` …); simulation of programs over polynomials, by induction on the program |
| C58 | expressions (Spec/Expr.lean) evaluated by a relation that leaves schedules, cache contents and order of evaluation open; the operations are those of C28, C30, C32, C36, C40 | induction on the evaluation; comparison from C31; identities by instantiating them with the polynomial ring and `derivP` as a `Derivation` |
| C59 | the same for the operations of power series (C46-C48), without diff | invariant: the object is the truncation (at its own tag) of the exact value, which has no terms of negative degree; truncation commutes with the ring operations |
| C60 | the transition system of C36 (Model/PowConc.lean); stacks of calls per thread for TBB tasks (Model/PowTbb.lean) | the mutex is held exactly by the thread in the critical section; a measure that every transition decreases; the deadlock with nested calls by exhibiting an execution and an invariant |
| C61 | `byte_size` with 64-bit arithmetic and any splitting of the reduction, `table_stats` without its text (Model/ByteSize.lean) | arithmetic in `ZMod (2^64)`; induction on the splitting; permutations of terms |
| C62 | `subs` of power series: `poly_subs_impl` with the operators of power series (Model/PsSubs.lean) | loop invariant: the partial sum is the truncation of the exact partial sum, and truncated from the first term on; degrees of the remaining monomials; products as in C59 |
| C63 | programs over power series (Model/PsProgram.lean): the statements of C57 with the operators of power series, the checks of truncations, the tags read before and restored after the forwarded operation | each operator on objects refines C46/C48; case analysis on clash / no clash / exception; induction on programs; Props/PsProgramOps.lean gives the meaning of calls of diff, integrate, trim, add_symbols, subs, constants and generators from C46, C42, C44, C48, C62 |
| C64 | `tex_stream_insert` of power series (Model/Print.lean) | the terms contain no space, the truncation starts with one; reading numbers, fractions and names off the text |
| C65 | `ss_fw`, `trunc_t_fw` with obake's hashers and comparers over a reference-counted hashed factory (Model/Intern.lean); one atomic step per operation | invariant of table, counts and objects; simulation of variables holding values |
| C66 | programs with sequences, branches, loops, `throw`, handlers over the statements of C57 and C63, `pow` with the global cache, and observations (Model/Cmd.lean); execution bounded by a number of steps | outcomes agree with outcomes of programs over polynomials (Spec/Cmd.lean): induction on the number of steps; monotonicity in the number of steps gives total correctness ; definite assignment (`Spec/Defined`): `C66_defined`, `C66_ps_defined`, `C82_defined`, soundness of the rules by induction on the number of steps |
| C67 | the `assert`s of the modelled functions are `cassert`, out-of-range accesses and undefined arithmetic are the outcome `ub` (in all modules); Spec/Safety.lean defines what it means that neither occurs | the error classes of the functional theorems contain neither; for programs, from C66 and an induction on the number of steps |
| C68 | the built-in operators of C++ integers with promotions, conversions and overflow as operations on coefficients (Model/CxxCf.lean, on top of the integer types of Model/Integral.lean) in the existing model of series; Spec/CxxCf.lean compares the stored coefficients with the exact ones | the coefficient type is interpreted in `ℤ` (signed) or `ZMod (2^bits)` (unsigned), for which the coefficient laws hold, so that the theorems for arbitrary rings apply; operands of other types are related to the result type by conversion lemmas |
| C69 | as C68; Spec/CxxDef.lean: `Fits` (all coefficients representable), `absPoly` (absolute values of coefficients), `norm1` | the computation is shown to coincide, step by step, with the same computation on exact integers as long as the values involved are representable (`Agrees`); for products, the loops over pairs of terms are described by `LoopSpec`, which is proved for C++ integers from the bound on the sums of absolute values (every partial sum of every table, in any order, is bounded by them) |
| C70 | Spec/RawCf.lean: `RawSpec` (the coefficient operations throw only exceptions of a class; nothing is said about their values), `RawInv` (class invariant in terms of `is_zero`); the models of Series.lean unchanged | induction over the insertion loops, with the invariant that `is_zero` returned `false` for every stored coefficient; filters and symbol extension reuse the generic proofs |
| C71 | `cfAt` (coefficient of a monomial, if any), `sumCf`, `addSubCf`, `mapCf`, `EqCf` (operations on optional coefficients), `FloatLike` (laws of rounding to nearest) | same inductions, tracking for each monomial the sequence of operations applied to its coefficient; uniqueness of keys makes that sequence of length at most one |
| C72 | `accum`/`prodCf` (accumulation of a list of pairs of coefficients), `IsPairs` (the list contains each contributing pair of terms once), `RawProd`, `RawMulErr` | the proof of C32/C33 is parametrised by the postcondition of the loop over pairs (`LoopQ`); for arbitrary coefficients the invariant relates the table to the list of pairs processed so far, monomial by monomial; homomorphic hashing shows that all pairs of a monomial are processed in the same table |
| C73 | `Ty` (a type as a value), `TyEnv` (oracle for scalar, key and tag types), the `constexpr` selection functions as recursive functions on `Ty`; spec: `levels`, `base`, `Ty.of`, suffixes of lists of levels | recursion over pairs of types, by induction on the sum of the ranks; for `*` the recursion `r *= T` inside the selection is not structural, so the model has a depth bound which is shown to be sufficient |
| C74 | `XState` (two `BitVec 64`), `rotl`, `next`, `random` (Model/Xoroshiro.lean), the seeds of polynomial.hpp | the transition is linear over the field with two elements; the kernel checks on the 128 basis vectors that the polynomial `xf` of degree 128 annihilates it, and, by square-and-multiply modulo `xf` on natural numbers (proved correct), that `X^(2^128-1) = 1` and that `X^((2^128-1)/p) - 1` is invertible for each of the nine prime factors `p` (the largest one proved prime by Lucas' criterion); counting along the cycle |
| C75 | `diffArgs` (what is inserted for a monomial), `sumAll` (successive insertions with the same monomial), `ZeroCf`, `mapCf`; the models of C40, C41, C42 | induction over the insertions, tracking for each monomial the list of insertions with that monomial; this list is a permutation of `diffArgs`, and of length at most one for `integrate` |
| C76 | `RawPow` (repeated multiplication, each step a `RawProd`), `RawPowRes`, `SameCf`/`EqSer` (identical terms, terms that compare equal), `BaseFor`; the models of C36 | invariant of the cache: each entry holds powers of exactly its base, which is an argument of an earlier call; the entry found compares equal to the argument |
| C77 | the models of C46-C48; `RawPsInv`, `truncCf` (a coefficient after truncation), `RawPow` with a truncation | the lemmas of C71-C76, with a filtering of the terms by degree behind each operation |
| C78 | the models of C38, C39 and C62, for coefficients with arbitrary operations; `monAcc` (value of a monomial from left to right), `subsCf` (the one product of a term), `sumOpts` (sums with removal of zeros), `RawPsSum` | induction over the loops of `evaluate` and `poly_subs_impl`, with the lemmas of C71, C72, C76 and C77 for the additions, products and powers in them |
| C79 | `Model/TypesCalc`: the algorithm selections of `diff`, `integrate`, `evaluate`, `subs` and `degree` as recursive functions over the types of C73, with further oracles for scalars and keys (`CalcEnv`); `Arith`: a family of arithmetic types with common types | induction over the nesting levels, with the characterisations of products, sums and powers of C73 |
| C80 | `Model/NestedExpr`: objects of all ranks in one type, the choice of the implementation by the ranks of the operands; `powN`: powers at every rank with any cache history of all ranks; expressions of C58 | induction over the evaluation, with the mixed operations of C55, C36 at every rank, constants as ring homomorphisms; types with C73 and C79 |
| C81 | `Model/PsCalculus1`: the loops of C56 with `+` and `+=` of power series | induction over the terms; the accumulator is untruncated before the first summand and carries the truncation afterwards; exact description of the result of integration, and a theorem that it is not truncated (finding 29) |
| C82 | `Model/Destroy`: the checks of `~series()`; `Spec/TabLim`: the limit on the sizes of tables | `C82_destroy_iff` characterises the checks; the limit is an invariant of all operations (`Lemmas/TabLim`), for products an invariant of the steps of the concurrent model; the rest is the class invariant of C23. `C82_program`, `C82_catch`: all objects of a program of C57 (aliasing, moves, exceptions). `C82_flow`, `C82_ps_flow`: the objects and the cache of powers of the programs with control flow of C66 (induction over steps, combined with the refinement of C66). `C82_failed_load`: finding 30. The parallel release of memory (NDEBUG or not) is not modelled |
| C83 | `Model/Reserve`: the loop of `reserve()`; a table rehashes (an arbitrary permutation of its terms) or fails to allocate. Capacities are not modelled | Induction over the tables; `reserve()` is also one of the calls of the histories of C23 and C82 |

None of the properties is outside what the model expresses; what each theorem assumes is stated in its
hypotheses, and the restrictions with respect to the code are listed below.

## Trusted base

* Lean's kernel (4.33.0), and the definitions of Mathlib used in statements.
* Axioms: of the theorems in MANIFEST.json, most depend on `propext`, `Classical.choice` and `Quot.sound`, some
  only on `propext` and `Quot.sound`, on `propext`, or on none; no other axiom occurs (`#print axioms` on each).
  No `native_decide`, `bv_decide`, user axioms.
* The faithfulness of the model to the C++ source, which is by reading.  Each definition cites the lines it
  models and says what it simplifies.
* The semantics of the C++ standard library, abseil, boost and TBB facilities used: `set_union`, `lower_bound`,
  `stable`/parallel sorts (only that they produce a sorted permutation), hash tables (finite maps with
  unspecified iteration order), `std::mutex`, thread-safe initialisation of static locals, `atomic_flag`
  (release/acquire semantics as in Model/Spinlock.lean), `tbb::parallel_for` (executes all tasks, in any
  interleaving, or cancels remaining ones after an exception), archives (a list of primitive values).

## What is modelled and what is not

Modelled: src/kpack.cpp, include/obake/kpack.hpp; safe_integral_arith.hpp, safe_convert.hpp, safe_cast.hpp (integral
types, mppp integers and rationals), to_string.hpp; symbols.hpp/symbols.cpp (merging, intersections, interned symbol sets); packed_monomial.hpp and
d_packed_monomial.hpp (all functions); series.hpp (class, insertion,
segmentation, iteration, find, filter, arithmetic, equality, conversion, pow and its cache, degree, evaluate, trim,
add_symbols, serialisation with the symbol set and the tag); polynomial.hpp (generators, simple and multithreaded multiplication with all truncation
modes, pow, subs, diff, integrate, truncation); power_series.hpp (truncation, arithmetic, pow, diff, integrate,
generators, serialisation of the tag); fw_utils.hpp/.cpp; atomic_lock_guard.hpp, atomic_flag_array.hpp.

Not modelled: the rounding of floating-point coefficients (their operations are arbitrary functions in C70-C72); failure of memory allocation other than in
C49, when a term is inserted into a table (C27: `CEnv.alloc`, an arbitrary function of the table and the key) and when a series is
copied in a program (C57, C63), in `x += x` or into and out of the cache of powers (C36, C60) (`CEnv.copy`, which may throw or return the terms of a table in another order); template metaprogramming and
concept dispatch other than the selection of the arithmetic operations in C73 (each algorithm selected by the dispatch is modelled for the types for which it is selected); the
internals of TBB, abseil and boost; stack traces; `byte_size` of coefficients and keys; `type_name`; the text of `table_stats()`.
In the estimation of the size of a product (C54) the random engine and distributions, the results of floating-point
computations, `byte_size` and the splitting of the trials are universally quantified; the theorems about multiplication
other than C54 quantify over the result of the estimation.

Restrictions of individual models (also in comments): degrees are integers; series as
coefficients (C55) are polynomials (any key type in each level) and have no tag; exponents of `pow` are integers or non-integers
(`none`); `diff`/`integrate` with a change of the coefficient type ("algorithm 1", C56) are modelled for polynomials (not
for power series); substitution values are scalars or polynomials; in programs (C57, C63) all series have the same type, and a moved-from object
may only be assigned to (as series.hpp documents).

## Findings

Places where the code does not do what one would expect; the theorems have corresponding hypotheses, or the
behaviour is exhibited by a theorem or example.

1. `series_sym_extender` (series.hpp:563-564): the flag `check_zero` is inverted — on when the coefficient types
   coincide (where it is not needed), off when they differ (where a conversion may produce a zero) — so zero
   coefficients may be stored.  `EnvSpec`/`ArgSpec` hypotheses on conversions exclude this case.
2. `d_packed_monomial`: `key_is_compatible` ignores nonzero padding exponents in the last pack
   (`dpm_padding_observation`).
3. `d_packed_monomial`: the degree is accumulated left to right with overflow checks and can throw although the
   degree fits (`dpm_degree_throws_observation`).
4. Truncated multiplication by partial degree adds two partial degrees without a check; for signed d_packed
   exponents this can overflow (UB) although the overflow check passed (`dpm_partial_truncation_observation`); hence
   the hypothesis `PartSafe`, proved for packed monomials and unsigned d_packed monomials.
5. Addition with symbol merging loses the tag, depending on which operand is larger; `pow` of a single coefficient
   drops the symbol set and the tag.
6. `trim` sets the number of segments from the new series (harmless).
7. Flyweight storage: with several DLLs, a second requester can obtain a reference to storage in which the object has
   not been constructed yet (`fw_unconstructed_observation`).
8. Printing is injective only for symbol names that are nonempty and not "1" (`C51_name_one_ambiguous`); for series also
   names with signs are ambiguous (example in Props/PrintSeries), and the text is cut after 50 terms.
9. `packed_monomial(symbol_set)` accepts symbol sets that are too large; hence hypotheses `IsKey ss (unit ss)`.
10. The maximum table size is checked only with several segments, so failure of insertions depends on segmentation.
11. `boost::numeric_cast<unsigned>` in the size estimation throws for about 8.6·10^16 or more products of terms.  The
    estimate (hence the number of tables, but not the polynomial) depends on how `tbb::parallel_reduce` splits the
    trials, because the index vector is reshuffled cumulatively within a range; with truncation, terms without any
    product within the limit are treated as collisions (observations in Props/Estimate).
12. `pow` rejects natural exponents ≥ 2^32.  Integration with truncating integer division is not exact; C41
    quantifies over exact division.
13. Powers of power series with terms of negative degree: intermediate truncation differs from the truncation of the
    exact power (`ps_pow_laurent_observation`).  In-place operations that throw while truncating leave a series with the
    new tag and untruncated terms; `set_truncation` clears the series instead.
14. `subs` keeps the substituted symbols in the symbol set of the result.
15. `series_pow_from_cache` multiplies while it holds the mutex of the cache, without isolating the TBB tasks of the product: a
    thread can deadlock with itself if tasks of an enclosing parallel algorithm call `pow()` (`pow_tbb_deadlock_observation`).
16. `subs` of a power series with negative exponents can return terms beyond the truncation it reports, and which ones depends on
    the order of the terms in the tables (`ps_subs_negative_observation`).
17. If the addition of coefficients throws in `x += y`, with `x` truncated and `y` not, `x` may keep terms beyond its truncation: the
    truncation of the result is only applied after a successful addition (`ps_in_place_throw_observation`; the histories of C46 consist
    of successful operations).
18. The (defaulted) copy assignment of series is not exception safe: if the copying of a table throws, some tables have been
    replaced but the symbol set and the number of tables have not, and the object may hold two terms with the same key or keys of
    another symbol set, so that even its destructor fails in debug builds (`copy_assignment_observation`; it is safe if symbol sets and
    numbers of tables coincide, `C57_copy_assignment_like`).
19. The difference `x - y` of polynomials with coefficients of type `int` (or wider) is computed as `-(y - x)` if `x` has fewer terms
    than `y`, so that it is undefined if a coefficient of `x` that is absent from `y` is `INT_MIN`, although the coefficients of the
    difference are representable (example in Props/CxxCf.lean).
20. Even if all coefficients of a product of polynomials with signed C++ integers are representable, the product may be undefined, because
    the order in which the products of terms are accumulated is that of the hash tables (example `cxP * cxQ` in Props/CxxDef.lean).
21. The product of two polynomials with floating-point coefficients is not reproducible: the order in which the products of terms are
    accumulated depends on the algorithm (simple or multi-threaded) and on the number of tables, hence on the number of cores (example
    `flU * flV` in Props/RawMul.lean).
22. In TeX mode a truncated power series with a single term that is a coefficient of another series is not put into parentheses, so that
    `(x + O(> 2))·z` reads `{x} + \mathcal{O}\left( > 2 \right){z}` (example in Props/PrintPs.lean).
23. `x += y` is accepted for operands for which `x + y` does not exist: a series of lower rank is converted to the coefficient type by a
    constructor that ignores tags, so that an (exact) polynomial can be added in place to a polynomial over power series, but not with `+`
    (example in Props/Types.lean).
24. `xoroshiro128_plus::random<Int>()` is documented to return values "with uniform probability within the whole range"; this is so for
    integers of at most 64 bits (`C74_uniform`), but for 128-bit integers two states give the same value, hence some values are never
    returned (`C74_wide`).  The library uses the function only in its tests.
25. `diff(x, s)` multiplies the coefficient of a term without `s` by the exponent 0 and inserts the product (polynomial.hpp:2633-2638)
    instead of skipping the term.  If the coefficient is infinite or NaN the product is NaN, hence not zero, and the derivative has a term
    that should not be there: `diff(99 a + NaN b, a)` is `99 + NaN b` (example in Props/RawCalc.lean).
26. The cache of `pow` looks up bases with the `==` of the coefficients.  For types whose `==` is coarser than identity the result depends
    on the history of the process: `mppp::real` compares values and ignores precisions, so that `pow` of a polynomial with precise
    coefficients returns the (less precise) power computed earlier for a polynomial with the same values and a lower precision (example
    `prX3` in Props/RawPow.lean; `C76_exact` excludes this for types whose `==` is identity).
27. A polynomial with a NaN coefficient is never equal to itself, so that every call of `pow` on it adds an entry to the process-wide cache
    (`C76_not_cached`); the memory is only released by `clear_series_pow_map`, which is internal.
28. `evaluate()` and `subs()` have a lowest-priority implementation that returns a copy of the argument (math/evaluate.hpp:60-63,
    math/subs.hpp:46-49).  It is meant for scalars, but is also chosen for series if the algorithm for series is not available, e.g. for
    values of type `int` (there is no `pow` of C++ integers, math/pow.hpp:44-69) or for values that are polynomials over other monomials:
    then `evaluate(x, symbol_map<int>{...})` compiles and returns `x` unchanged (`C79_evaluate_copies`, `C79_subs_copies`), and a missing
    symbol is not reported.  The same may happen for the coefficients of a nested series only (`C79_evaluate_inner_copies`).
29. `integrate` of a truncated power series whose coefficient type changes (power_series.hpp:1426-1440 truncates only if the type of the
    result is that of `x`) returns a series that carries the truncation but has terms beyond it: the first `retval += q` truncates
    (`retval` is not truncated yet), all later ones do not (the truncations agree).  Which terms remain depends on the iteration order
    (`C81_integrate`, `C81_integrate_not_truncated`, example `psD` in Props/PsCalculus1.lean).  The comments in power_series.hpp mention
    corner cases "in which the return value is not truncated"; here it is truncated according to `get_truncation()`, and the class
    invariant of power series is broken.  `diff` and `integrate` of a truncated zero return a zero that is not truncated.
30. `load` of a series does not check what it reads (series.hpp:1492-1499 says so): an archive of the right format that was not written by
    `save`, e.g. with a term in the wrong table, is loaded without an error, and the object violates the class invariant – `find` does not
    find its terms, and in a debug build its destructor aborts (example after `C82_failed_load` in Props/Destroy.lean).
