# Formal model of controlledreduction: design

## 1. Approach

The C++ code is read as text and modelled in Lean 4 as total functions.  Nothing
in /repo is built or run.  A function of the code becomes a Lean function; a loop
becomes structural recursion or a fold; a call that can stop or misbehave returns
`Res α` (file `Verif/Core/Res.lean`), whose failure outcomes are kept apart:

* `assertFail` – an `assert` of the code fails (asserts are live unless the code is
  configured with `--disable-assert`, configure:393),
* `abort` – `abort()` or NTL's `Error`,
* `ub` – undefined behaviour (out-of-bounds access, empty map dereference, ...),
* `diverge` – the loop provably never ends.

Integers are unbounded `Int`/`Nat`, except where the property is about 64-bit
range (C05, C17, C42).  NTL's `ZZ_p` with modulus `p^N` is `ZMod (p^N)`, or an
arbitrary commutative ring `R` where only ring laws are used.  `zz_p` is `ZMod p`.

### Files

* `Verif/Core/*` – outcome type, shared helpers.
* `Verif/Model/*` – the model, function by function, each with file:line citations.
* `Verif/Spec/*` – small independent specifications (what the English says).
* `Verif/Lemmas/*` – helper lemmas.
* `Verif/Props/*` – property theorems only, named `C01_...`, each followed by an
  `example` showing its hypotheses are met by a concrete non-trivial case.

## 2. Properties: what is modelled and how it is proved

| id | model | proof |
|----|-------|-------|
| C01 | `operator<` on `List Int` with error/UB outcomes | induction over the vectors |
| C02 | add/sub/mul on `List Int` in `Res` | induction |
| C03 | `tweak_step`, `tweak` | induction on r and on the vector |
| C04 | `diff` | case analysis |
| C05 | product/factorial quotient; byte-size assert; `conv<long>` truncation | `Nat.choose` identities; negation with witness for the 2^63..2^64 window |
| C06 | the odometer loop of `tuple_list_generator` | invariant of the odometer; refinement to the recursive list of compositions |
| C07 | list + map with `operator[]` semantics | from C06 (no duplicates) |
| C08 | digit-sum loop | Legendre's formula (Mathlib) |
| C09 | division loop per factor | induction on the range |
| C10 | nested loops over the map with `MvPolynomial`-free coefficient maps | evaluation homomorphism; `MvPolynomial` as the specification |
| C11 | tuple enumeration and coefficient products, unbounded and in 64 bits | binomial theorem; the sum of the absolute values is at most `∏ (1+\|v_i\|)^(u_i)` |
| C12 | the table, literally | case split; inequality proved for every p in each row's range |
| C13 | traces of powers + Newton recursion with exact division | Newton identities over the algebraic closure |
| C14 | the whole function, logs replaced by exact integer comparison | Weil bound on power sums, uniqueness of balanced residues |
| C15 | as C14 | direct |
| C16 | flat arrays with the strides of the code | index arithmetic; negation with witness for non-square mpz variants |
| C17 | little-endian base-256 digits and sign | digits round trip |
| C18 | flat arrays with stride = rows | round trip for cols <= rows; negation with witness otherwise |
| C19 | the post-processing of the row echelon form; `rref`/`inv` of FLINT/NTL are parameters with a stated contract | linear algebra over a field |
| C20 | Newton loop over `ZMod (p^N)` | quadratic convergence invariant |
| C21 | loops filling the matrix | coefficient comparison with `MvPolynomial.pderiv` |
| C22 | the reduction matrix as written | membership in the span of `F*∂_i f - ∂_i F` |
| C23 | recursion over k | same quotient, induction over k |
| C24 | direction choice + C22 + inclusion + C23 | composition |
| C25 | arbitrary admissible paths | C22 + C23 + independence of the basis |
| C26 | the batched loop | induction on k |
| C27 | ZZ loops with remainders | ring hom ℤ → ZMod |
| C28 | state machine of the dictionaries with eviction | invariant over request sequences |
| C29 | state machine of the power table | invariant |
| C30 | the while loops | termination measure = missing degree |
| C31 | product loops | telescoping of factorials |
| C32 | the double sum, with 64-bit overflow | binomial identities in `Polynomial ℤ`; right up to 67 terms, wrong for 68, stops from 69 on |
| C33 | fold over a permutation of iterations | updates at distinct indices commute |
| C34 | ND reduction matrices | as C22 with x_i ∂_i |
| C35 | ND batched loops over ZZ_p, ZZ and flint | as C26 plus degree bound; column 0 of the matrices is never zero |
| C36 | difference table | finite-difference calculus; negation with witness for non-nested boxes |
| C37 | rank test | ideal membership ⇒ no common zero |
| C38 | retry loop over a stream of random matrices | induction over tries |
| C39 | resampling loop over a random stream | determinant of a row scaling |
| C40 | precision arithmetic, choice of the model, overloads (as text and as vectors) | loop steps in closed form, table facts, C37-C39, C14, C44 |
| C41 | the text written and read, character by character | round trip of every field; invariant of the reading loop |
| C42 | buffer capacity arithmetic | arithmetic; negation with witness |
| C43 | divide by p^i, compare with cyclotomics below the bound | totient lower bound |
| C44 | characters: printers and readers | round trip |
| C45 | init loops | from C06 and the asserts; the rank by counting residues modulo d |
| C46 | lifetime state machine of the modulus | negation with witness; partial for one thread |
| C47 | the frob_J loop over maps of vectors | class invariant over e |
| C48 | ND directions + C34 + matrix to the cohomology basis | composition; independence of the basis |
| C49 | the frob_ND loops over maps of vectors, three variants | class invariant over the passes; the keys stay above a bound that keeps every direction legal |
| C50 | ND reductions over ZZ | ring hom ℤ → ZMod |
| C51 | frob_matrix_ND, its omp loop and the table of powers | each iteration writes its own row; table prepared before the loop is a fixed point |
| C52 | the seven dictionaries of dr_nd with their eviction rules, under the Frobenius functions | simulation: every stored entry is what the function would compute |
| C53 | no write into a shared dictionary from the parallel loop of frob_matrix_ND | invariant: all monomials met are positive, all directions are in the table; every look-up hits |
| C54 | the Frobenius functions of hypersurface over the dictionaries of dr | simulation, as C28 |
| C55 | no write into a shared dictionary from the parallel loop of frob_matrix_J | invariant: keys nonnegative, `src - dest` a tuple of degree d, last `dest` a tuple of degree n; every look-up hits |
| C56 | critical sections of the loop over the columns of compute_reduction_matrix_ND | each section is an addition to the map; additions commute; the map is determined by its keys and sums |
| C57 | loads and stores of the loop over the columns of compute_reduction_matrix_J | iteration c touches only column c; projection of the execution to one iteration |
| C58 | the three loops of a pass of frob_ND_flint with several threads | the parallel loop is a map over slots; fusion of the three loops |
| C59 | init and init_ND | syzygies of the partial derivatives are trivial ⇒ regular sequence ⇒ Hilbert function; Nullstellensatz for the converse |
| C60 | the overloads of the constructors | assignment of a sorted table; C59 and C37 |
| C61 | the drawing loops over a stream of random numbers | induction over the draws; Euler's identity when p divides d |
| C62 | save and load of the non-degenerate object | round trip of the characters, on top of C41 |
| C63 | test_monomial_to_basis_J, test_monomial_to_basis_ND | f^i P is cohomologous to a rising factorial times P; C27 |
| C64 | frob_matrix_J, frob_matrix_ND as a whole | C33/C51 + C47/C49; errors of the loop are errors of a call |
| C65 | zeta_function with the real Frobenius routines | C40 + C59 + C64; negation with witness when p divides d; whole runs for two cubics, the linear systems by checked certificates |
| C66 | uniqueness of coordinates; frob_matrix_J against frob_matrix_ND | C25 (independence) + C24 on every monomial; units modulo p^K cancel |
| C67 | runs with K and K' digits | the model commutes with ring homomorphisms; the rows chosen depend on the matrix modulo p only; C66 |
| C68 | examples/frob.cc: input, computation, output | round trips of the characters (C41); C60, C38, C65, C14, C43 put together; the run on a cubic with C89 |
| C69 | examples/K3_dwork.cc, examples/K3_dwork2.cc | common zeros of the partial derivatives by hand; C59, C65 |
| C70 | operator<<= against the literals of Python | a small reader of Python literals as specification; round trip by induction over the list |
| C71 | the series of the Frobenius loops against the lift x_i -> x_i^p | truncated binomial series in f^p - f(x^p), which p divides; induction over m and N |
| C72 | the vectors drawn by `test_paths_J`, `test_paths_ND` | invariants of the drawing loops with a bound on the passes; C25; a fair sequence raises every coordinate |
| C73 | the test programs under dr, dr_nd, hypersurface, hypersurface_nd, wrapper | the theorems about the routines (C61, C63, C72, C33, C51); evaluation of the inputs; counterexamples for the tests that cannot fail |
| C74 | the last loops of the Frobenius functions, digit by digit | C08/C09 for the exact division; uniqueness of coordinates (C66); maps of coefficients (C67) |
| C75 | single calls of `frob_J` and `frob_ND`; hypersurface/test/test_K3p3.cc with its data | C74 and uniqueness of the digits; smoothness by a certificate in degree 9 checked by evaluation; round trip of the characters |
| C76 | the assertion of charpoly_frob and the loop test of geometric_picard in floating point | error analysis with relative errors; the squares of the two sides are integers, hence a gap of the logarithms unless equal |
| C77 | the digits kept in the columns determine charpoly_prec digits of the characteristic polynomial, for default_args and zeta_function | minors: sums over subsets of columns, each column divisible by its power of p, one column by the power in the difference; the least sum of the other exponents from the block sizes of the basis; Legendre's formula; every row of the tables |
| C78 | the texts of the example inputs; the programs that read them | evaluation of the readers on the texts; smoothness by certificates: a power of each variable is a combination of the partial derivatives (identities checked by `ring`), so over every extension field; number of points by evaluating the whole table of 17^3 values; the trace of a matrix with entries 0..p-1 against Weil's bound; C65, C68, C77 for the runs |
| C79 | the templates of conv.h, the array conversions of vec_int64.h, the lists of `frob_ND_flint` | what each loop leaves in the array, by induction; disjoint offsets |
| C80 | the routines of matrix.h for FLINT's matrices over one word, with the asked for reduced arguments; `solve_system_padic_flint` with matrices of words | loop invariants; the result as a function of what the shared memory holds; refinement to the model modulo `p^N` |
| C81 | the integer parts of timing.h | linear arithmetic |
| C82 | the assertions at the start of the functions of dr and dr_nd | exactly which arguments pass, with C23, C24, C27, C34, C48 for those that do |
| C83 | `solve_system` as a function of the matrix | pivot columns = columns independent of the earlier ones, so `U` is determined; both implementations meet that description |
| C84 | the programs as functions of the linear algebra routines | C83 for the solver, the contract for ranks and determinants; then equality of the programs by rewriting |
| C85 | `reduce_vector_ND_poly_flint`, `finitediff_flint_nmod` in words, with their buffers | refinement: every word routine on the words of a matrix gives the words of the model's result; induction over each loop |
| C86 | `frob_ND_flint` with its reductions in words (Model/FrobWords) | the matrices and vectors handed to every reduction are reduced; equality of the term function, then congruence through the loops |
| C87 | the parallel loops with a solver of its own in each thread (Model/Workers) | the invariant of C53 and C55 with an arbitrary solver on the side with dictionaries: every look-up hits, so no solver is called |
| C88 | `zeta_function` with the dictionaries and `threads` (Model/ZetaThreads) | C51/C33 (order), C87 (threads), C53/C55 (dictionaries) below C40: the model handed to the Frobenius routine meets their hypotheses, so the routines agree and so does everything after them |
| C89 | the constructors, reductions and Frobenius matrices for two lists of terms of one polynomial | the matrices of `matrix_J` and `matrix_ND` are determined by their entries (`coeff_jac`, `coeff_tor`) and are zero outside their dimensions, so they are equal; the solvers get equal matrices; the Frobenius matrices by C74 (a Frobenius matrix written with the digits left is unique) |
| C90 | the Frobenius functions with every operation on exponent vectors in `int64_t` | all vectors have entries >= 0 and a sum of at most p (m + N - 1) d: the direction is below the monomial, so `p u - k v` is below `p u`; equality of the two programs pass by pass with this invariant; for zeta_function a routine that is the 64-bit one only below the bound, and the whole table of default_args for the default options; converse: the first pass meets the overflowing term |

## 3. Trusted base

* Lean's kernel (4.33.0) and Mathlib's definitions used in the specifications
  (`MvPolynomial`, `ZMod`, `Matrix.charpoly`, `Nat.choose`, `Nat.factorial`, ...).
* Axioms: every theorem depends on a subset of `propext`, `Classical.choice`,
  `Quot.sound` (checked with `#print axioms` for all property theorems).  No axioms of our own,
  no `sorry`, no `native_decide`, no `bv_decide`.
* The reading of the C++ code.  Every definition in `Verif/Model` cites the lines
  it models; a wrong reading is not caught by Lean.  The theorems were tested
  against wrong programs (`seeded/LOG.jsonl`), which checks that they say
  something about the definitions, not that the definitions are the code.
* The contracts of NTL, FLINT and GMP below.
* As a check of the reading, a copy of the model (Model/DeRham, ND, Frob, FrobND with a stand-in for Mathlib's `ZMod`, outside
  /verif) was compiled and run on a few inputs.  For the quartic of hypersurface/test/test_K3p3.cc it returns column 0 of the table
  in that file, all 21 entries, column 1 and column 20; for four elliptic curves over F_7 and F_13 it returns matrices whose characteristic polynomials agree
  with the numbers of points counted by hand.  This is a test of the model, not a proof, and no theorem depends on it.

### External contracts (parameters of the model)

* `LinAlg`/`LinAlgOK` (Spec/SolveSystem): `nmod_mat_rref`/`gauss` return a reduced
  row echelon form with its rank, `nmod_mat_inv` an inverse.  The theorems hold for
  every implementation meeting the contract; `exists_linAlg` shows that one exists.
* `SolverOK` (Spec/DeRham): the contract of `solve_system_padic` used by the de Rham
  part.  It is *proved* for the model of `solve_system_padic` (C20,
  `padicSolver`), and the de Rham theorems are instantiated with it.
* `RankDetOK` (Spec/Smooth): rank and determinant over `F_p`; `exists_rankDet`.
* `CmpOK`, `FactorOK` (Spec/Picard): the floating point test of geometric_picard.cc up to one percent, exact at
  k = 1, 2; factorisation of `fmpz_poly` over the integers; `exists_cmp`, `exists_factor`.  `CmpOK` follows from `FlOK` (C76).
* `FlOK` (Spec/Float): `+`, `*`, `/` and `log` of an integer are right up to a relative error `u`, and exact if the result is
  an integer up to 2^53.  Used in C76 only, with `u` up to 2^-52.
* `nmod_add`, `nmod_mul`, `nmod_sub`, `nmod_mat_mul`, `nmod_mat_scalar_mul` of FLINT: exact on reduced words, undefined on others (C80).  `rep`, `conv` of NTL between `zz_p`, `ZZ` and
  words: the representative in `[0, q)` and the residue class (C79).
* NTL's text formats of `ZZ`, `ZZ_p`, `Vec`, `Mat` (Model/Text), from NTL's sources.
* Arithmetic of `ZZ`, `ZZ_p`, `zz_p`, `fmpz`, `mpz`: exact.  `inv` of a non-unit stops.
* NTL vectors keep their storage when shortened (used for `G0` in `frob_J_ZZ`, C47).

## 4. What is modelled

| part of the code | model | not modelled |
|---|---|---|
| vec_int64.h, tools.h, tools/* | Model/Vec, Model/Tools, Model/Map, Model/Poly, Model/Text (streams), Model/Picard, Model/Display (`operator<<=`) | fail bits of streams |
| matrix/*, conv.h, conv/*, matrix.h | Model/Matrix, Model/Charpoly, Model/Conv | GMP limbs; the `typedef`s for older versions of FLINT |
| timing.h | Model/Timing | the clocks, floating point |
| charpoly_frob, default_args | Model/Charpoly, Model/DefaultArgs | floating point logs: replaced by exact comparison; Model/Float and C76 compare the two |
| solve_system/* | Model/SolveSystem, Model/SolveWords | the elimination inside FLINT/NTL (contract) |
| dr/* | Model/DeRham, Model/Paths, Model/Batch, Model/Cache, Model/Save, Model/Construct (overloads of the constructors), Model/SelfTest | printing, timing, verbose flags |
| dr_nd/dr_nd.cc | Model/ND, Model/NDPaths, Model/NDBatch, Model/NDWords, Model/FrobWords (machine words), Model/CacheND (the dictionaries), Model/Construct, Model/SaveND, Model/SelfTest | printing, timing |
| dr/isSmooth.cc, isND, find_change_of_variables, random_SL_matric.cc | Model/Smooth | the random generator: any stream; the loops over random matrices are bounded by a parameter |
| wrapper/zeta_function.cc | Model/Zeta (the two Frobenius routines are a parameter), Model/Pipeline (put together: zeta_function.cc:136-152), Model/ZetaThreads (the same with the dictionaries and the number of threads), Model/ZetaI64 and Model/ZetaRange (the same in 64 bits) | `omp_set_num_threads` itself (an argument below 1 is not checked when OpenMP is on; the assertion of line 43 is compiled only without it), verbose output; the type `int` of `abs_precision` (it is an `int` in the signature, and `abs_precision - (n-1) + i` with n <= 3 stays in range) |
| examples/frob.cc, K3_dwork.cc, K3_dwork2.cc | Model/Programs | the arguments of `main`, opening of the files, timing, messages |
| examples/*.input, zeta_function_wrapper_K3.cc, zeta_function_wrapper_genus3.cc | Model/Examples (the texts, the two polynomials, the calls) | timing, messages |
| dr/test, dr_nd/test, hypersurface/test/test_invariance_J.cc, hypersurface_nd/test/test_invariance_ND.cc, test_JND_and_invariance.cc, wrapper/test | Model/DrawPaths, Model/TestPrograms | GenPrime_long, timing, messages; the case n = 3 of test_JND_and_invariance, which `main` does not run |
| hypersurface/test/test_K3p3.cc | Model/TestK3 | `rand()` is a parameter; messages |
| hypersurface/* | Model/Frob, Model/FrobMatrix, Model/FrobJI64 (exponent vectors in 64 bits), Model/CacheFrob (with the dictionaries) | interleavings inside an iteration |
| hypersurface_nd/* | Model/FrobND; Model/FrobI64 (exponent vectors in 64 bits); Model/ThreadsFrob (the branch for several threads); Model/Workers (the same with the dictionaries, inside the parallel loop) | allocation of the lists; frob_matrix_ND is in full, its parallel loop with an arbitrary order of iterations |

Simplifications:

* The dictionaries of matrices in `de_Rham_local` are left out of Model/DeRham
  and treated in Model/Cache: C28 proves that for every sequence of requests the dictionary
  returns the value of the uncached function, so the de Rham model calls the latter.
* `map` iteration order is the key order of `operator<`; the model keeps sorted
  association lists where order matters and states results up to order where not.
* Classes of forms (Spec/Scaled): a polynomial of degree `k d - (n+1)` stands for `(k-1)! G Ω / f^k`, the relations are
  `F ∂_i f - ∂_i F`.  This is the convention of the code and loses nothing modulo `p^K`; the coarser relation with
  factorials (`Cohomologous`) is derived (`C47_column_class`).
* In the Frobenius model (Model/Frob, Model/FrobND) `int64_t` indices are `Nat`/`Int`; only the coefficients
  `D_{j,m}` and the binomials are range checked (signed overflow is `ub`).  Model/FrobJI64 and Model/FrobI64 are the same
  functions with every operation on exponent vectors range checked; C90 shows that they agree.  `change_of_variables_monomial` is
  modelled twice, with unbounded coefficients and in 64 bits (Model/PolyI64).
* OpenMP loops: the two loops over columns are modelled with interleavings of critical sections (C56) and of single
  loads and stores (C57), Model/Threads. In the other loops the order of whole iterations is a parameter;
  C53 and C55 prove that the iterations of `frob_matrix_ND` and `frob_matrix_J` write to no shared dictionary and not
  to the table of powers.
  C87 runs the same loops with a different solver in every thread, because the modulus of `zz_p` is local to a thread
  and is not restored there (Model/Workers).

## 5. Where the code does not do what the property says

Each is a theorem with a concrete witness (suffix `_wrong`), next to the part that does hold.

* C05 `binomial` returns a negative number for results in [2^63, 2^64).
* C32: because of that window the Frobenius functions can take at most 67 terms.  With `N = 68` the big-integer
  computation of `D_{33,m}` is too large by `C(m+66, m-1) 2^64`, without an error (`C32_window_wrong`); from `N = 69` on
  no Frobenius function returns (`C32_stops`, `C32_frob_stops`).  The intermediate 64-bit variants overflow earlier:
  the coefficients fit up to 66, 60 and 55 terms for n = 1, 2, 3 (`C32_range`).
* C12 `default_args` accepts `p = 2`.  The assertion of `charpoly_frob` then fails, by more than rounding (C76), except for
  (n, d) = (2, 6) and (2, 9): there its two sides are equal and the rounding of `log` decides (`C76_tie_undecided`).
* C16, C18: the mpz matrix product, scaling, matrix-vector product and the conversions
  use the number of rows as stride; wrong for non-square matrices.
* C30: the direction loops do not end when the degree is too small (excluded by the callers).
* C31: `frob_J_ZZ_p` stops its last loop at `e = m` and so the closing assertion on
  the factorial fails for `n >= p`, `m > 1` (`C31_ZZ_p_wrong`); for `n/p > m + N - 1`
  both functions fail (`C31_low_precision_wrong`).
* C47: `frob_J_ZZ` reuses `G0` without clearing the storage behind its length when
  the last loop has more than one pass with terms, `n/p > m` (`C47_stale_storage_wrong`).
* C11: `change_of_variables_monomial` multiplies in `int64_t` without a check (`C11_overflow_wrong`); the calls in
  `compute_reduction_matrix_ND_poly` are safe when `(1+d)^(n+1) < 2^63` (`C11_ND_poly_partial`).
* C36: `finitediff_flint_nmod` updates `Mfd[j]` only inside the box of nonzero entries of `M_{j+1}`, but the difference
  to subtract involves `M_i` for all `i > j`.  When the boxes are not nested it stops at its closing assertion or
  returns a wrong vector (`C36_wrong`); this happens for the matrices of a non-degenerate object
  (`C35_flint_wrong`: a cubic modulo 25), and in whole runs: in the main loops `dest = p (u - v)` vanishes modulo `p`, so
  with few digits some of the lower matrices are zero and their boxes empty.  For `x^3 + y^3 + z^3`, one digit, one term
  of the series for `xyz`: modulo 7 `frob_ND_flint` returns a wrong column without an error and `frob_matrix_ND` a wrong
  matrix (`C49_flint_wrong`, `C64_flint_wrong`).  The values of `default_args` for plane cubics and `p >= 17` are one digit
  and one term; for `p = 17` the final assertion of the finite differences fails, in `frob_matrix_ND` and so in
  `zeta_function` with its default options (`C64_default_args_wrong`, `C65_default_cubic_wrong`).  These runs are
  evaluated by the kernel, with the solver a variable: every matrix met has one entry in every column, where
  `solve_system_padic` returns what `monoSolver` returns (C83).  By hand, the entry in question is 84/27 instead of 0 for every
  prime `p > 3`: only `p = 7` passes the assertion.  The condition is not empty: for `x^3 + y^3 + z^3 + y z^2` and `p = 17` the
  matrices are nested (`C49_cubic_batch`) and `zeta_function` returns `T^2 - a T + 17` with `a` the trace of the truncated
  Frobenius matrix (`C65_default_cubic`, `C65_default_cubic_trace`).  There the kernel checks certificates (the matrix of the linear
  system, the rows chosen and the inverse, `Lemmas/CertSolver.lean`); by C83 they are the answers of every correct
  library.  When all the matrices are zero it reads `max_row[-1]` (`C36_all_zero`).
* C41: the saved file holds only the reduction of `f`; when `f` is not the naive lift the loaded object
  combines the naive lift with the solve pairs of the old `f` (`C41_loaded_inconsistent_wrong`).
* C42: `save` declares `char fileswpname[sizeof(filename)+4]`, 12 bytes, and writes the name and `.swp` into it:
  outside of the array for every name of 8 or more characters (`C42_swp_name_wrong`).  dr_nd/dr_nd.cc has the same lines.
* C46: with more than one thread `frob_ND_flint` clears its modulus in every pass of the loop over `e` and again
  after it: use after free and double free for every modulus of `2^62` or more (`C46_threads_wrong`).
* C61: when `p` divides `d` the random constructor of `de_Rham_non_degenerate_local` never returns: no polynomial passes
  its test (`C61_never_ends_wrong`), while the assertion `d % p != 0` comes after the loop.
* C65: `zeta_function` accepts a requested precision of 69 or more when `p` is large enough, and never returns
  (`C65_many_digits_wrong`).
* C65: when `p` divides `d >= 3`, `zeta_function` stops with the message that the hypersurface is not smooth, for every
  polynomial (`C65_p_divides_d`), although smooth ones exist (`C65_smooth_rejected_wrong`: y^2 z = x^3 + x z^2 over F_3).
* C68: examples/frob.cc counts newlines to tell its two input formats apart; a file in the long format whose last line is
  not ended by a newline is never read (`C68_unterminated_wrong`).  When all coefficients are divisible by `p` the first key of an
  empty map is read, instead of the polynomial being rejected as singular (`C68_zero_wrong`).
* C69: examples/K3_dwork.cc prints that the surface is not smooth and goes on; the constructor then stops at an
  assertion (`C69_singular`).
* C70: `operator<<=` is meant to be "compatible with SAGE", but a vector with one entry is written `(5)`, which is a number
  (`C70_vec_single_wrong`), and the rows of a matrix are written by `operator<<` of NTL, without commas (`C70_mat_wrong`; see the
  header of Verif/Model/Display.lean for the name lookup).
* C73: the programs under */test.  `test_zeta_function` writes `expected` to the buffer instead of reading it, so that `expected` is
  0, and reports FAIL if the result is equal to it: every Frobenius routine passes (`C73_zeta_wrong`).  `test_invariance_J` and
  `test_invariance_ND` call the routine on `hs` again instead of `hs2` (`C73_invariance_wrong`).  `test_JND_and_invariance` prints that
  `Fp_J != Fp_ND` but goes on and may end with PASS (`C73_jnd_wrong`).
* C78: examples/example_quartic_curve_modp.input asks for the matrix modulo `p` (one digit, no terms for the forms of pole order 1) but has the list of
  absolute precisions of the run modulo `p^3`; `charpoly_frob` takes the trace of the matrix as known modulo `p^2`, and what the
  program prints is never the Frobenius polynomial of the curve (`C78_modp_wrong`, `C78_modp_program_wrong`).
* C63: the self tests compute `(k + K - 1)!` in an `int64_t`: signed overflow from `k + K = 22` on (`C63_overflow_wrong`).

C40: for `p < 2 n + r` the default precisions are lower than the formula `zeta_function` uses for requested
precisions (for instance 5 against 6 for plane cubics and `p = 3`); the code itself refuses requested precisions there, so
`C40_default_needed` asks `p >= 2 n + r`.

Undefined behaviour at the edges, modelled as `ub` and excluded by hypotheses: `charpoly`
of a 0x0 matrix, `operator<` on empty vectors, output of an empty map, `max` of an empty
vector, FLINT products with zero length, batched reduction with a negative count, a base
of `nmod_pow_ui`/`nmod_mul` not below the modulus (more than `q` steps in the one-limb flint version).  For `n = 0`
(points on a line) the non-degenerate reduction drops its constant part; the theorems ask `1 <= n`.
