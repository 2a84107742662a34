{"id": "C01", "title": "Monomial keys are strictly totally ordered", "statement": "The comparison that every polynomial/dictionary map uses for exponent vectors is a strict total order on non-empty vectors of one length: irreflexive, asymmetric, transitive, and two vectors neither of which is smaller are equal; so a map never holds two entries for the same monomial nor merges two different monomials. Comparing vectors of different length always stops with an error, and comparing two empty vectors is undefined behaviour.", "quantifier": "all triples of vectors, all lengths, all entries", "why_tests_cant": "a comparator defect corrupts std::map only for particular key triples; the number of triples is unbounded", "anchors": ["vec_int64.h: operator<, vi64less"]}
{"id": "C02", "title": "Exponent-vector arithmetic obeys the laws the reductions rely on", "statement": "Component-wise add, subtract and scale return vectors of the common length, satisfy (u+v)-v = u, u+v = v+u, k*(u-v) = k*u-k*v, and any length mismatch stops the program instead of returning a vector. In particular p*u - p*v = p*(u-v), which the Frobenius loops assert.", "quantifier": "all vectors of all lengths and all integer scalars", "why_tests_cant": "infinitely many vectors; the mismatch branch must stop for every pair of different lengths", "anchors": ["vec_int64.h: mul, add, sub, operator+, operator-, operator*"]}
{"id": "C03", "title": "Tweaking a monomial removes exactly the requested degree and stays inside it", "statement": "For a vector with non-negative entries, tweak(u,r) returns w with 0 <= w <= u componentwise and degree(w) = degree(u) - min(r, degree(u)); degree is taken from the lowest-index variables first; tweak(u,a+b) = tweak(tweak(u,a),b). With negative r the call never returns.", "quantifier": "all non-negative vectors and all integers r", "why_tests_cant": "the degree bookkeeping must hold for every vector and every amount, including amounts larger than the degree", "anchors": ["vec_int64/tweak.cc: tweak", "vec_int64/tweak_step.cc: tweak_step"]}
{"id": "C04", "title": "Differentiating a monomial lowers exactly one exponent or stops", "statement": "diff(u,i) returns u with entry i decreased by one when that entry is positive, and stops with an assertion failure otherwise; it never returns a vector with a negative entry when given non-negative entries, and diff(u+e_i,i) = u.", "quantifier": "all vectors and indices", "why_tests_cant": "holds for all lengths and positions; the failing branch is never exercised by the tests", "anchors": ["vec_int64/diff.cc: diff"]}
{"id": "C05", "title": "binomial returns the binomial coefficient or stops", "statement": "binomial_ZZ(n,k) equals n choose k for every 0 <= k <= n, with every intermediate division exact; binomial(n,k) returns the same number whenever it is representable as a signed 64-bit integer, and stops when it needs more than 8 bytes; it never returns a different number.", "quantifier": "all n, k", "why_tests_cant": "the failing window (values between 2^63 and 2^64) is met by only a handful of (n,k)", "anchors": ["tools/binomial.cc: binomial", "tools/binomial_ZZ.cc: binomial_ZZ"]}
{"id": "C06", "title": "The monomial list is complete, duplicate-free and sorted", "statement": "tuple_list_generator(result,d,n) fills result with every n-tuple of non-negative integers of sum d, each exactly once, in strictly increasing map order, and their number is binomial(d+n-1,n-1), so its closing assertion never fires.", "quantifier": "all d >= 0 and n >= 1", "why_tests_cant": "completeness is a statement about every tuple for every size", "anchors": ["tools/tuple_list_generator.cc: tuple_list_generator"]}
{"id": "C07", "title": "Reverse lookup inverts the monomial list", "statement": "For each degree l the dictionary built beside the monomial list maps the i-th monomial to i, for every i, and looking up any monomial of that degree returns a position holding that monomial; looking up anything else silently yields position 0 (std::map operator[]).", "quantifier": "all degrees, all variable counts, all monomials", "why_tests_cant": "a single wrong index silently corrupts a matrix; must hold for every monomial of every degree", "anchors": ["dr/init.cc: tuple_list, tuple_dict", "dr.h: tuple_list, tuple_dict"]}
{"id": "C08", "title": "valuation_of_factorial is the exact power of p in n!", "statement": "For every prime p and n >= 0 the returned v satisfies p^v | n! and not p^(v+1) | n!.", "quantifier": "all primes p and all n", "why_tests_cant": "digit-sum formula must be exact for every n", "anchors": ["tools/valuation_of_factorial.cc: valuation_of_factorial"]}
{"id": "C09", "title": "factorial_p_adic splits the product into p-power and unit", "statement": "For p prime and 1 <= start <= n+1 the returned valuation v and result r satisfy: product of start..n equals p^v times an integer prime to p whose residue is r; with start = 1 the internal cross-check against valuation_of_factorial always succeeds; a range containing 0 never terminates.", "quantifier": "all primes, all ranges, all moduli p^k", "why_tests_cant": "unbounded ranges; the assertion must never fire", "anchors": ["tools/factorial_p_adic.cc: factorial_p_adic"]}
{"id": "C10", "title": "change_of_variables is polynomial substitution", "statement": "change_of_variables(f,M) is the polynomial obtained from f by substituting x_i -> sum_j M[i][j] x_j, for every polynomial map and every square matrix; with the identity matrix it returns the same polynomial, substituting M then M' equals substituting the product matrix, and for invertible M it can be undone.", "quantifier": "all polynomials, coefficient rings, variable counts and matrices", "why_tests_cant": "equality of polynomials for all inputs", "anchors": ["tools.h: change_of_variables"]}
{"id": "C11", "title": "change_of_variables_monomial expands the shifted monomial", "statement": "change_of_variables_monomial(u,v) lists the coefficients of prod_i (x_i + x*v_i)^(u_i) in the n+1 variables x_0..x_{n-1}, x; evaluating the result at any point equals evaluating the product.", "quantifier": "all u >= 0 and all v of equal length", "why_tests_cant": "polynomial identity over all exponents", "anchors": ["tools/change_of_variables_monomial.cc: change_of_variables_monomial"]}
{"id": "C12", "title": "default_args is consistent for every prime it accepts", "statement": "For each (n,d) in the table and every p >= 2, default_args fills a precision > 0, a vector N of length n with every entry between 0 and that precision, and a charpoly_prec vector whose length is one more than the rank of the primitive middle cohomology of a smooth degree-d hypersurface in P^n; the precisions satisfy the bound that charpoly_frob asserts, so the assertion cannot fire on its output. For every other (n,d) it aborts.", "quantifier": "all p (unbounded), all (n,d)", "why_tests_cant": "p ranges over all primes and each table row must satisfy the inequality for all p in its range", "anchors": ["tools/default_args.cc: default_args", "matrix/charpoly_frob.cc: precision assertion"]}
{"id": "C13", "title": "charpoly returns the characteristic polynomial", "statement": "charpoly(M) is the coefficient vector of det(x I - M) for every square integer matrix of size >= 1 (monic, degree n); every division in it is exact so its assertion never fires.", "quantifier": "all sizes n >= 1 and all integer matrices", "why_tests_cant": "Newton identities must divide exactly for every matrix", "anchors": ["matrix/charpoly.cc: charpoly", "matrix/trace.cc: trace"]}
{"id": "C14", "title": "charpoly_frob recovers the exact Frobenius polynomial from approximations", "statement": "Let P be a monic integer polynomial of degree b satisfying the functional equation of weight dim and whose roots have absolute value p^(dim/2). If the characteristic polynomial of the input matrix agrees with P to the stated coefficient precisions, and those precisions meet the bound the function asserts, and the sign can be read off, then charpoly_frob returns exactly the coefficients of P: no assertion fires.", "quantifier": "all P, all matrices, all precision vectors meeting the bound, all p", "why_tests_cant": "rounding/lifting must be right for every polynomial with the Weil bounds; tests sample a few surfaces", "anchors": ["matrix/charpoly_frob.cc: charpoly_frob"]}
{"id": "C15", "title": "whatever charpoly_frob returns is monic and satisfies the functional equation to the shared precision", "statement": "Whatever the matrix and the precisions, when charpoly_frob returns, the matrix was square of some size b >= 1, its result has length b+1 and leading coefficient 1, the asserted precision bound held, and there is a sign (1 when the dimension is odd) such that coefficients i and b-i satisfy r[i] = sign * p^((b-2i)*dim/2) * r[b-i] modulo p to the precision the two share, for all 2i < b; in particular the constant coefficient is sign * p^(b*dim/2) modulo that precision. In each pair of coefficients i < b-i the one whose precision determines the pair is the coefficient of the characteristic polynomial of the matrix modulo p to its own precision.", "quantifier": "all matrices and precision vectors", "why_tests_cant": "holds for arbitrary input including wrong approximations", "anchors": ["matrix/charpoly_frob.cc: charpoly_frob"]}
{"id": "C16", "title": "Matrix product variants compute the products they name", "statement": "mul_transpose(A,B) returns A*B^T and transpose_mul_transpose(A,B) returns transpose(A*transpose(B)) = B*A^T (as documented in matrix.h) for all compatible shapes; the raw mpz-array mul, scalar mul, mat-vec mul and mul_transpose return the mathematical product.", "quantifier": "all shapes and entries", "why_tests_cant": "index/stride errors show only on non-square shapes, which the callers rarely use", "anchors": ["matrix/mul.cc: mul", "matrix/mul_tranpose.cc: mul_transpose", "matrix/transpose_mul_tranpose.cc: transpose_mul_transpose", "matrix.h"]}
{"id": "C17", "title": "Big-integer conversions round-trip", "statement": "Converting an integer ZZ -> mpz -> ZZ (and ZZ -> fmpz -> ZZ) through the byte buffer returns the same integer, sign included, for integers of any size.", "quantifier": "all integers", "why_tests_cant": "unbounded size, sign and zero edge cases", "anchors": ["conv/conv.cc: conv(mpz_t, ZZ), conv(ZZ, mpz_t), conv(fmpz_t, ZZ)"]}
{"id": "C18", "title": "Matrix conversions round-trip", "statement": "Converting a matrix to a flat array and back yields the same matrix for every shape.", "quantifier": "all shapes r x c and all entries", "why_tests_cant": "stride bug appears only when columns exceed rows", "anchors": ["conv/conv.cc: conv(mpz_t*, Mat<ZZ>), conv(Mat<ZZ>, mpz_t*)", "conv.h"]}
{"id": "C19", "title": "solve_system over F_p returns a complement of the image and an inverse", "statement": "For every matrix T over F_p, solve_system_zz_p returns a list B of distinct rows in increasing order and a matrix U such that, with J the columns e_b for b in B, (T | J) * U is the identity, |B| = rows - rank T, and the classes of e_b form a basis of the cokernel of T.", "quantifier": "all matrices of all shapes over all primes, including zero columns and full rank", "why_tests_cant": "degenerate shapes and ranks; must hold for all", "anchors": ["solve_system/solve_system.cc: solve_system_zz_p, solve_system_zz_p_flint, solve_system_zz_p_NTL", "solve_system.h"]}
{"id": "C20", "title": "p-adic lifting reaches the full requested precision", "statement": "For every T over Z/p^N, solve_system_padic returns B and U with (T | J) * U = identity exactly modulo p^N, for every N >= 1 (not only powers of two), by Newton doubling from the solution modulo p; the flint and NTL implementations satisfy the same equation with the same B.", "quantifier": "all N, p, T", "why_tests_cant": "off-by-one in the doubling loop or a too-small working modulus shows only for particular N", "anchors": ["solve_system/solve_system.cc: solve_system_padic, solve_system_padic_flint, solve_system_padic_NTL"]}
{"id": "C21", "title": "The relation matrix is the Jacobian map", "statement": "matrix_J(l) is the matrix, in the monomial lists, of (H_0..H_n) -> sum H_i * df/dx_i with deg H_i = l-(d-1); matrix_ND(l) likewise for sum H_i * x_i df/dx_i with deg H_i = l-d; for l too small they have no columns.", "quantifier": "all homogeneous f, n, d, l", "why_tests_cant": "must hold for every polynomial and degree", "anchors": ["dr/matrix_J.cc: matrix_J", "dr_nd/dr_nd.cc: matrix_ND"]}
{"id": "C22", "title": "A reduction step does not change the cohomology class", "statement": "For every direction v of degree d and every u with u_i = 0 wherever v_i = 0, the matrix returned for (u,v) maps the coordinates of a form in V_{u+v} to coordinates of a cohomologous form in V_u (difference exact); the result is again admissible (divisible by x_0...x_n).", "quantifier": "all f with complete top-degree relations, all u, v, all vectors", "why_tests_cant": "correctness for every exponent u (unbounded), every f and prime", "anchors": ["dr/compute_reduction_matrix_J.cc: compute_reduction_matrix_J", "dr/get_reduction_matrix_J.cc: get_reduction_matrix_J", "dr/reduce_vector_J.cc: reduce_vector_J"]}
{"id": "C23", "title": "Final reduction expresses any form of pole order <= n in the basis", "statement": "For 1 <= k <= n the matrix get_final_reduction_matrix_J(k) sends the coordinates of (k-1)! G Omega/f^k to coordinates c in the cohomology basis such that the form is cohomologous to sum c_j * basis_j (basis elements carrying their own pole order, without factorial).", "quantifier": "all k, G, f", "why_tests_cant": "induction over pole order for arbitrary f", "anchors": ["dr/compute_final_reduction_matrix_J.cc", "dr/get_final_reduction_matrix_J.cc"]}
{"id": "C24", "title": "monomial_to_basis_J returns the coordinates of the given monomial form", "statement": "For every u with positive entries and degree a multiple of d, monomial_to_basis_J(u) terminates without assertion failure and returns coordinates of (m-1)! x^u Omega/(x_0..x_n f^m) in the cohomology basis.", "quantifier": "all u (unbounded pole order)", "why_tests_cant": "unbounded pole order; tests check up to small N", "anchors": ["dr/monomial_to_basis_J.cc: monomial_to_basis_J", "dr/compute_inclusion_matrix_J.cc"]}
{"id": "C25", "title": "The result does not depend on the reduction path", "statement": "Any two sequences of admissible reduction directions from the same u down to pole order n, followed by inclusion and final reduction, give the same coordinates on admissible vectors.", "quantifier": "all starting exponents and all pairs of paths", "why_tests_cant": "the number of paths is exponential; test_paths_J samples a few random ones", "anchors": ["dr/test_paths_J.cc: test_paths_J", "dr_nd/dr_nd.cc: test_paths_ND"]}
{"id": "C26", "title": "Batched reduction equals repeated single steps", "statement": "reduce_vector_J_poly(u,v,k,G) equals k successive single reductions from u+k*v down to u, and the ZZ version returns the same residues; for k = 0 it returns G; the loop variants of the Frobenius functions give the same residues.", "quantifier": "all u, v, k >= 0, G", "why_tests_cant": "k up to p, unbounded; equality for every vector", "anchors": ["dr/reduce_vector_J_poly.cc", "dr/reduce_vector_J_poly_ZZ.cc", "hypersurface/frob_J_ZZ.cc: loop"]}
{"id": "C27", "title": "Working over ZZ gives the same residues as working over ZZ_p", "statement": "The ZZ versions of the reduction matrices and vector reductions are congruent modulo p^precision to the ZZ_p versions whatever the sequence of steps, and every vector after a batched ZZ reduction has entries in [0,p^precision).", "quantifier": "all sequences of reductions", "why_tests_cant": "any interleaving of reductions and remainders", "anchors": ["dr/get_reduction_matrix_J_ZZ.cc", "dr/reduce_vector_J_ZZ.cc", "dr/reduce_vector_J_poly_ZZ.cc"]}
{"id": "C28", "title": "Cached matrices do not depend on call history", "statement": "For any sequence of requests (solve pairs, reduction matrices over ZZ_p and ZZ, inclusion matrices, final reductions) and either setting of save_memory, each request returns the same matrix as on a fresh object.", "quantifier": "all finite sequences of requests, both save_memory settings", "why_tests_cant": "histories are unbounded; eviction interacts with later requests", "anchors": ["dr/get_solve_J.cc", "dr/compute_reduction_matrix_J.cc", "dr/compute_reduction_matrix_J_ZZ.cc", "dr/get_inclusion_matrix_J.cc", "dr/get_final_reduction_matrix_J.cc"]}
{"id": "C29", "title": "The table of powers of f is right after any sequence of calls", "statement": "After any sequence of compute_fpow(N) calls, entry k of the table is f^k for every k below its length, the table covers the largest N requested, and never shrinks.", "quantifier": "all sequences of calls, all f", "why_tests_cant": "history quantification", "anchors": ["hypersurface/compute_fpow.cc: compute_fpow"]}
{"id": "C30", "title": "Choosing a reduction direction terminates and is admissible", "statement": "Whenever degree(u) >= d and at most d entries of u are positive, the direction search terminates with v of degree d, v <= u, v_i > 0 exactly where u_i > 0 (so u-v meets the reduction precondition). For the non-degenerate variant, if sum(u_i - 1) >= d it terminates with v of degree d and u - v still positive everywhere; with the shift used by the flint variant the result also stays above the shifted monomial.", "quantifier": "all u, all d", "why_tests_cant": "a while loop without bound; termination must hold for all u", "anchors": ["hypersurface/frob_J_ZZ.cc", "dr/monomial_to_basis_J.cc", "hypersurface_nd/hypersurface_nd.cc: frob_ND_flint"]}
{"id": "C31", "title": "The factorial bookkeeping of the Frobenius loops is exact", "statement": "After processing pole order e the running factor equals (p(m+N-1)-1)!/(max(p(e-1),1)-1)! exactly, so at the end it equals (p(m+N-1)-1)!; the ZZ variant's closing assertion therefore never fires.", "quantifier": "all p, m, N", "why_tests_cant": "product telescopes over unbounded ranges; a boundary error shows only when n >= p", "anchors": ["hypersurface/frob_J_ZZ.cc", "hypersurface/frob_J_ZZ_p.cc", "hypersurface_nd/hypersurface_nd.cc"]}
{"id": "C32", "title": "The Frobenius expansion coefficients are right", "statement": "The integers D_{j,m} used by the Frobenius functions are the coefficients of the truncated binomial expansion: sum_{j<N} D_{j,m} X^j = sum_{i<N} C(m+i-1,i) (1-X)^i, i.e. the order-N truncation of X^(-m) around X = 1: X^m * (that polynomial) is congruent to 1 modulo (1-X)^N.", "quantifier": "all m >= 1, N >= 1", "why_tests_cant": "polynomial identity for all m,N", "anchors": ["hypersurface/frob_J_ZZ.cc: Djm", "hypersurface_nd/hypersurface_nd.cc: Djm"]}
{"id": "C33", "title": "The Frobenius matrix is independent of schedule and assembled column by column", "statement": "frob_matrix_J(N) has as i-th column the vector frob_J(i, N[m_i-1]) where m_i is the pole order of basis element i, or zero when N[m_i-1] <= 0; any order of executing the loop iterations (parallel schedule) gives the same matrix.", "quantifier": "all interleavings of whole iterations, all N", "why_tests_cant": "schedules are unbounded in number", "anchors": ["hypersurface/frob_matrix_J.cc: frob_matrix_J", "hypersurface_nd/hypersurface_nd.cc: frob_matrix_ND"]}
{"id": "C34", "title": "A non-degenerate reduction step does not change the cohomology class", "statement": "For every direction v of degree d and every u, the matrix returned by get_reduction_matrix_ND(u,v) maps coordinates of a form in W_{u+v} to coordinates of a cohomologous form in W_u.", "quantifier": "all non-degenerate f, u, v", "why_tests_cant": "polynomial in u; must hold for every u", "anchors": ["dr_nd/dr_nd.cc: compute_reduction_matrix_ND, get_reduction_matrix_ND, reduce_vector_ND"]}
{"id": "C35", "title": "Non-degenerate batched reduction equals repeated single steps", "statement": "reduce_vector_ND_poly(u,v,k,G), its ZZ version and its flint version equal k successive single reductions from u+k*v to u, including the shortcut that stores only row 0 for the top degree in x.", "quantifier": "all u,v,k,G", "why_tests_cant": "row-0 shortcut relies on a structural degree bound for all f", "anchors": ["dr_nd/dr_nd.cc: reduce_vector_ND_poly, reduce_vector_ND_poly_ZZ, compute_reduction_matrix_ND_poly"]}
{"id": "C36", "title": "Finite-difference evaluation equals direct evaluation", "statement": "finitediff_flint_nmod(M,k,G) returns M(0) M(1) ... M(k-1) G modulo the modulus for every matrix polynomial M of degree <= n+1 and every k > n+1, or stops at its closing assertion; it does not return a wrong vector.", "quantifier": "all matrix polynomials, all k, all moduli", "why_tests_cant": "difference-table recurrences over unbounded k; sparsity boxes interact with coefficients", "anchors": ["dr_nd/dr_nd.cc: finitediff_flint_nmod, nmod_mat_sub_submatrix"]}
{"id": "C37", "title": "isSmooth accepts only smooth hypersurfaces", "statement": "If isSmooth(f) returns true then the partial derivatives of f have no common zero other than the origin over any extension field; isND(f) returning true implies the same for x_i df/dx_i. isSmooth is true exactly when every monomial of degree (d-2)(n+1)+1 lies in the Jacobian ideal.", "quantifier": "all f over all F_p, all points over all extension fields", "why_tests_cant": "points over all extension fields", "anchors": ["dr/isSmooth.cc: isSmooth", "dr_nd/dr_nd.cc: isND"]}
{"id": "C38", "title": "find_change_of_variables returns a usable matrix or zero", "statement": "The returned matrix M is either zero, or has determinant 1 and makes f non-degenerate (the identity when f already is); at most N random matrices are tried.", "quantifier": "all f, N, all random outcomes", "why_tests_cant": "all random streams", "anchors": ["dr_nd/dr_nd.cc: find_change_of_variables", "matrix/random_SL_matric.cc: random_SL_matrix"]}
{"id": "C39", "title": "random_SL_matrix always has determinant one", "statement": "Whatever the random numbers, whenever random_SL_matrix(n) returns, the matrix has determinant 1 and its assertion does not fire.", "quantifier": "all random streams, all n >= 1", "why_tests_cant": "all random outcomes", "anchors": ["matrix/random_SL_matric.cc: random_SL_matrix"]}
{"id": "C40", "title": "zeta_function overloads agree and precision is sufficient or the call stops", "statement": "The vector and string overloads call the main routine with the polynomial whose coefficient of each listed monomial is the last value listed for it, reduced mod p; the main routine never runs with a working modulus smaller than the precision it reports, and stops when p is too small.", "quantifier": "all inputs", "why_tests_cant": "all combinations of options", "anchors": ["wrapper/zeta_function.cc: zeta_function"]}
{"id": "C41", "title": "Saving and loading a de Rham object preserves its observable state", "statement": "Loading a saved object gives the same p, precision, n, d, Hilbert vector, basis and solve pairs, and the same polynomial f whenever f is the naive lift of its reduction; when f is not the naive lift the loaded f differs.", "quantifier": "all objects", "why_tests_cant": "any polynomial, any state of the caches", "anchors": ["dr/save.cc: save", "dr/constructors.cc: de_Rham_local(const char*)"]}
{"id": "C42", "title": "save does not write outside its buffers", "statement": "Saving to any file name performs no out-of-bounds write.", "quantifier": "all file names", "why_tests_cant": "memory-safety for every name length", "anchors": ["dr/save.cc: fileswpname", "dr_nd/dr_nd.cc: save"]}
{"id": "C43", "title": "geometric_picard counts roots of unity completely", "statement": "The number returned by number_of_roots_of_unity for an irreducible factor is its degree if all its normalised roots are roots of unity and 0 otherwise: the search bound on the order is large enough that no cyclotomic factor is missed.", "quantifier": "all integer polynomials, p", "why_tests_cant": "the bound phi(k) >= k/(log2(k)+1) must hold for all k", "anchors": ["tools/geometric_picard.cc: number_of_roots_of_unity, geometric_picard"]}
{"id": "C44", "title": "Polynomial text format round-trips", "statement": "Writing a non-empty polynomial map and reading it back gives the same map; on input with duplicate monomials the last coefficient wins; writing an empty map is undefined behaviour.", "quantifier": "all maps", "why_tests_cant": "all maps", "anchors": ["tools.h: operator>>, operator<<"]}
{"id": "C45", "title": "Basis bookkeeping is consistent", "statement": "After construction the cohomology basis has no repeated monomial, the reverse dictionary inverts it, its length is the sum of the Hilbert coefficients at degrees d-(n+1), 2d-(n+1), ..., nd-(n+1), every basis monomial of block i has pole order i+1, and (for the non-degenerate object) the basis has d^n elements.", "quantifier": "all f that pass the constructor", "why_tests_cant": "all f, n, d", "anchors": ["dr/init.cc: init", "dr_nd/dr_nd.cc: init_ND"]}
{"id": "C46", "title": "The flint Frobenius does not use its modulus after freeing it", "statement": "In frob_ND_flint the big-integer modulus is cleared exactly once, after its last use, for any number of threads and any number of pole orders.", "quantifier": "all thread counts, all moduli, all N", "why_tests_cant": "needs >1 threads and a modulus beyond one word", "anchors": ["hypersurface_nd/hypersurface_nd.cc: frob_ND_flint"]}
{"id": "C47", "title": "frob_J computes the truncated Frobenius series", "statement": "For every basis element x^b of pole order m and every N, the vector computed by the loop of frob_J is the coordinate vector, modulo the relations F d_i f = d_i F between forms (k-1)! G Omega / f^k, of (p(m+N-1)-1)! times sum_j D_{j,m} f^j(x^p) x^(p(b+1)-1) Omega / f^(p(m+j)); the final scaling divides exactly by the factorial and multiplies by p^(n-1). The loop of reductions and the merging of terms of equal monomial preserve the class of the whole sum.", "quantifier": "all basis elements, N, p", "why_tests_cant": "merge of terms at each pole order over all f", "anchors": ["hypersurface/frob_J_ZZ.cc: frob_J_ZZ"]}
{"id": "C48", "title": "monomial_to_basis_ND computes cohomology coordinates", "statement": "For every positive u of degree m*d, monomial_to_basis_ND(u) terminates and returns coordinates H with (m-1)! x^u Omega/(x_0...x_n f^m) cohomologous to the combination H of the cohomology basis; over Z/p^N it returns the same vector as monomial_to_basis_J(u).", "quantifier": "all non-degenerate f accepted by the constructor, all positive u", "why_tests_cant": "test_monomial_to_basis_ND compares with the other implementation on random u only", "anchors": ["dr_nd/dr_nd.cc: monomial_to_basis_ND, get_coKernels_to_basis, compute_coKernels_to_basis, test_monomial_to_basis_ND"]}
{"id": "C49", "title": "frob_ND computes the truncated Frobenius series", "statement": "For every basis element and every N >= 1, the vector computed by the loops of frob_ND_ZZ, frob_ND_ZZ_p and frob_ND_flint (all loop variants) is the coordinate vector of (p(m+N-1)-1)! times the series sum_j D_{j,m} f^j(x^p) x^(p(b+1)-1) Omega / f^(p(m+j)); the exact division at the end gives p^(n-1) times it; the variants agree; no assertion on the way fails and the direction searches end.", "quantifier": "all non-degenerate f accepted by the constructor, all primes p, all basis elements, all N, all tables of powers left by earlier calls", "why_tests_cant": "the map of partially reduced terms depends on f, p and N; the tests run a few small primes", "anchors": ["hypersurface_nd/hypersurface_nd.cc: frob_ND, frob_ND_ZZ, frob_ND_ZZ_p, frob_ND_flint"]}
{"id": "C50", "title": "The ND reductions over ZZ lift those over ZZ_p", "statement": "get_reduction_matrix_ND_ZZ and reduce_vector_ND_ZZ return integers that modulo p^N are the results of get_reduction_matrix_ND and reduce_vector_ND, for every u, direction v and vector of integers, and never read the first entry of an empty map.", "quantifier": "all objects built by the constructor, all u, v, all integer vectors", "why_tests_cant": "all integers, not residues only", "anchors": ["dr_nd/dr_nd.cc: get_reduction_matrix_ND_ZZ, reduce_vector_ND_ZZ, compute_reduction_matrix_ND_ZZ"]}
{"id": "C51", "title": "frob_matrix_ND: columns, threads and history", "statement": "Every column of the matrix of frob_matrix_ND is the vector frob_ND returns for that basis element at the precision of its pole order, or zero when that precision is not positive; the matrix is square of the size of the basis; it is the same with one thread or several, for every order in which the parallel loop runs its iterations, and for every table of powers of f left by earlier calls; the run ends normally exactly when the precision vector has length n and every needed frob_ND does.", "quantifier": "all objects built by the constructor, all precision vectors, all permutations of the iterations, all reachable tables of powers", "why_tests_cant": "the schedules of an OpenMP loop cannot be enumerated by running it", "anchors": ["hypersurface_nd/hypersurface_nd.cc: frob_matrix_ND"]}
{"id": "C52", "title": "The dictionaries of the non-degenerate object never change a result", "statement": "After any sequence of calls on one non-degenerate object, with save_memory on or off, every method (the reduction matrices over ZZ_p and ZZ, the batched matrices, the inclusion and cokernel matrices, monomial_to_basis_ND, compute_everything_ND, the three Frobenius functions and frob_matrix_ND) returns or fails exactly as it would with all dictionaries empty; reordering calls changes nothing; compute_everything_ND completes and no later call assertion-fails because an entry is already there.", "quantifier": "all objects built by the constructor, all call sequences, both settings of save_memory", "why_tests_cant": "needs an invariant over all histories of seven dictionaries with two eviction rules", "anchors": ["dr_nd.h:27-75", "dr_nd/dr_nd.cc: compute_everything_ND, get_solve_ND, compute_reduction_matrix_ND*, compute_inclusion_matrix_ND, compute_coKernels_ND_to_basis", "hypersurface_nd/hypersurface_nd.cc: frob_ND_*, frob_matrix_ND"]}
{"id": "C53", "title": "The parallel loop of frob_matrix_ND only reads the shared dictionaries", "statement": "After compute_everything_ND, a call of frob_ND (the flint version) with any coordinate, any precision and any table of powers made by earlier calls looks up only entries that are there: it writes into none of the dictionaries of the de Rham object. In the state in which the parallel loop of frob_matrix_ND starts, one iteration therefore changes no dictionary, not the table of powers of f, and no row of the result but its own; and the whole loop, in any order, leaves the dictionaries as compute_everything_ND left them.", "quantifier": "all objects built by the constructor with 1 <= n <= 61, all call histories, both settings of save_memory, all coordinates, precisions, tables of powers and orders of the iterations", "why_tests_cant": "a missing entry makes an insertion into a std::map shared between threads, a data race which a run shows only by chance", "anchors": ["hypersurface_nd/hypersurface_nd.cc:784-823", "dr_nd/dr_nd.cc:319-356"]}
{"id": "C54", "title": "The dictionaries of de_Rham_local never change what the Frobenius functions return", "statement": "After any sequence of calls on one hypersurface object (methods of de_Rham_local, frob_J_ZZ, frob_J_ZZ_p, frob_matrix_J), with save_memory on or off, every call returns or fails exactly as it would with all dictionaries empty, and as the functions without dictionaries do; reordering the calls changes no value.", "quantifier": "all objects, all call sequences, all tables of powers, both settings of save_memory, all values of loop", "why_tests_cant": "needs an invariant over all histories of five dictionaries with an eviction rule, through the nested loops of the Frobenius functions", "anchors": ["hypersurface/frob_J_ZZ.cc:11-305", "hypersurface/frob_J_ZZ_p.cc:11-279", "hypersurface/frob_matrix_J.cc:14-46", "dr/get_*.cc", "dr/compute_everything_J.cc"]}
{"id": "C55", "title": "The parallel loop of frob_matrix_J only reads the shared dictionaries", "statement": "After compute_everything_J, a call of frob_J_ZZ or frob_J_ZZ_p with any value of loop, any coordinate, precision and table of powers made by earlier calls looks up only entries that are there: it writes into none of the dictionaries. In the state in which the parallel loop of frob_matrix_J starts, one iteration changes no dictionary, not the table of powers of f, and no row of the result but its own; and the whole loop, in any order, leaves the dictionaries as compute_everything_J left them.", "quantifier": "all objects built by the constructor with n >= 1, all call histories, both settings of save_memory, all coordinates, precisions, tables of powers and orders of the iterations", "why_tests_cant": "a missing entry makes an insertion into a std::map shared between threads, a data race which a run shows only by chance", "anchors": ["hypersurface/frob_matrix_J.cc:14-46", "dr/compute_everything_J.cc:9-26"]}
{"id": "C56", "title": "The parallel loop over the columns of compute_reduction_matrix_ND", "statement": "The iterations of the parallel loop over the columns add to the shared map of matrices only inside critical sections. For any interleaving of these critical sections (those of one iteration keeping their order) the function returns exactly the map which one thread returns.", "quantifier": "all objects built by the constructor with n >= 1, all directions, all interleavings", "why_tests_cant": "the number of interleavings is exponential and a run shows one of them", "anchors": ["dr_nd/dr_nd.cc:863-1072"]}
{"id": "C57", "title": "The parallel loop over the columns of compute_reduction_matrix_J has no race", "statement": "Two iterations of the loop over the columns never touch the same entry of the shared matrices; hence for any interleaving of the single reads and writes of the additions (those of one iteration keeping their order) the matrices at the end are the ones which one thread computes.", "quantifier": "all objects built by the constructor, all directions, all interleavings of loads and stores", "why_tests_cant": "the additions are not protected by a critical section, and a lost update shows only by chance", "anchors": ["dr/compute_reduction_matrix_J.cc:40-110"]}
{"id": "C58", "title": "frob_ND_flint with several threads returns what it returns with one", "statement": "With more than one thread each pass of frob_ND_flint first fetches all polynomials, then reduces all vectors in a parallel loop, then collects the results; with one thread it treats the terms one by one. Whatever the schedule of the parallel loops, the function returns a vector and a table of powers with several threads exactly when it does with one, and they are the same. (That the modulus is cleared at the end of the first pass is C46.)", "quantifier": "all objects, moduli, primes, tables of powers, coordinates, precisions and schedules of every pass", "why_tests_cant": "the two branches are separate code and the number of schedules is factorial", "anchors": ["hypersurface_nd/hypersurface_nd.cc:555-656"]}
{"id": "C59", "title": "The constructors accept exactly the smooth (non-degenerate) hypersurfaces", "statement": "init of de_Rham_local returns an object if and only if d > n, p does not divide d and the partial derivatives of f have no common zero modulo p over any extension field; init_ND if and only if the same holds for x_i df/dx_i. In all other cases an assertion fails. In particular the assertions comparing with the Hilbert functions, and the one that the non-degenerate basis has d^n elements, never fail for a hypersurface that passed the first test.", "quantifier": "all primes, precisions N >= 1, n, d >= 2, homogeneous polynomials and linear algebra routines meeting their contract", "why_tests_cant": "the Hilbert function of a complete intersection is a theorem of commutative algebra; a run shows one polynomial", "anchors": ["dr/init.cc:45-98", "dr_nd/dr_nd.cc:194-243"]}
{"id": "C60", "title": "The overloads of the constructors and the smoothness tests agree", "statement": "The constructors taking vectors build the object of the polynomial with these coefficients in the order of the monomials, and refuse vectors of the wrong length; those taking zz_p coefficients build the naive lift. isSmooth (isND) returns true if and only if there is no common zero, and, for d > n and p not dividing d, if and only if the constructor succeeds. A nonzero matrix from find_change_of_variables gives a polynomial which the non-degenerate constructor accepts.", "quantifier": "all primes, precisions, degrees, polynomials, vectors, random streams", "why_tests_cant": "quantifies over all polynomials; the tests and the constructors compute different matrices", "anchors": ["dr/constructors.cc:7-47", "dr_nd/dr_nd.cc:20-57", "dr/isSmooth.cc:6-57", "dr_nd/dr_nd.cc:1659-1736"]}
{"id": "C61", "title": "The random constructors return the first acceptable draw", "statement": "The constructors with random coefficients, which test the draws at precision 1, return the object of the first smooth (non-degenerate) polynomial drawn and run as long as there is none; init does not fail for it. When p divides d the non-degenerate one never returns.", "quantifier": "all primes not dividing d > n, precisions, streams of random numbers and numbers of passes", "why_tests_cant": "depends on the random numbers; termination for no stream cannot be observed", "anchors": ["dr/constructors.cc:49-93", "dr_nd/dr_nd.cc:59-102"]}
{"id": "C62", "title": "Save and load of the non-degenerate object", "statement": "Reading the file written by save for a non-degenerate object gives back the prime, the precision, the dimensions, the bases, the Hilbert functions and every solve pair of both kinds; the polynomial comes back exactly when its coefficients are the naive lift of their nonzero residues, and then the object is the same. The constructor of the base class reads the same file; the constructor of the non-degenerate class does not accept a file of the base class.", "quantifier": "all objects returned by the constructor over Z/p^N, all flags", "why_tests_cant": "a round trip on samples does not show that no file, entry or length is read back differently", "anchors": ["dr_nd/dr_nd.cc:104-192", "dr_nd/dr_nd.cc:245-316", "dr/save.cc:7-62", "dr/constructors.cc:95-162"]}
{"id": "C63", "title": "The self tests of monomial_to_basis pass for every object", "statement": "test_monomial_to_basis_J and test_monomial_to_basis_ND, which compare the coordinates of f^K x^u / K-shifted factorials with those of x^u, return true for every constructed object and every number of extra factors as long as the factorials fit into int64_t, and run into a signed overflow exactly when they do not.", "quantifier": "all objects returned by the constructors, all N", "why_tests_cant": "the self test is itself a test on the objects it is called on; here it is shown to hold for all of them", "anchors": ["dr/test_monomial_to_basis_J.cc:11-80", "dr_nd/dr_nd.cc:1503-1571"]}
{"id": "C64", "title": "frob_matrix_J and frob_matrix_ND return the Frobenius matrix", "statement": "Every matrix returned by frob_matrix_J or frob_matrix_ND is square of the size of the basis and its i-th column holds the coordinates of the class of p^(n-1) times the truncated Frobenius series of the i-th basis element, zero when no terms are asked for; the only way not to return is a failed assertion, and that happens only when N has the wrong length or p^n divides one of the factorials.", "quantifier": "all objects built by the constructors, all precision vectors, all tables of powers left by earlier calls, all orders of the parallel loop", "why_tests_cant": "the class of a matrix column is a statement about all steps of the reduction for every f, p and N", "anchors": ["hypersurface/frob_matrix_J.cc: frob_matrix_J", "hypersurface_nd/hypersurface_nd.cc: frob_matrix_ND"]}
{"id": "C65", "title": "zeta_function from the polynomial to the characteristic polynomial", "statement": "For every prime p, every homogeneous polynomial and every option zeta_function either stops with a message exactly when the hypersurface is not smooth, or keeps searching for a non-degenerate model, or stops at the exact division, or returns the characteristic polynomial charpoly_frob computes from the Frobenius matrix of a model equivalent to the input over F_p, computed modulo the chosen power of p. With C77: when the matrix agrees in the digits kept with a matrix over the p-adic integers whose characteristic polynomial is an integer polynomial P with Weil's properties, what is returned is P, or P modulo p^abs when the zeta function is not to be deduced.", "quantifier": "all integer polynomials with n <= 3, all primes, all options, all random streams", "why_tests_cant": "the composition of the smoothness test, the random search, the constructors, the reduction and charpoly_frob is exercised by the tests on a handful of polynomials", "anchors": ["wrapper/zeta_function.cc:28-172", "hypersurface/frob_matrix_J.cc: frob_matrix_J", "hypersurface_nd/hypersurface_nd.cc: frob_matrix_ND"]}
{"id": "C66", "title": "The basis is a basis and the Frobenius matrix is determined; frob_matrix_J and frob_matrix_ND agree", "statement": "Every form of degree kd-(n+1) has exactly one vector of coordinates in the basis of the object; two vectors meeting the condition of a Frobenius column agree up to the digits lost in the exact division; so frob_matrix_J called on the base class and frob_matrix_ND return the same matrix whenever p^n divides none of the factorials.", "quantifier": "all objects built by the constructors over Z/p^K, all forms, all precision vectors, all tables and schedules", "why_tests_cant": "uniqueness of coordinates is a statement about all forms of all degrees; the two algorithms are compared in the tests on single surfaces", "anchors": ["dr/init.cc:7-106", "hypersurface/frob_matrix_J.cc: frob_matrix_J", "hypersurface_nd/hypersurface_nd.cc: frob_matrix_ND"]}
{"id": "C67", "title": "More digits change nothing but the number of digits", "statement": "For K <= K' the constructors accept the same polynomials (taken modulo p^K and p^K'), with the same bases, and the objects and Frobenius matrices with K digits are those with K' digits taken modulo p^K (up to the digits lost in the exact division), whatever linear algebra, flint flag, tables and schedules are used.", "quantifier": "all primes, all K <= K', all polynomials over Z/p^K'", "why_tests_cant": "relates runs at any two precisions", "anchors": ["dr/init.cc:7-106", "dr_nd/dr_nd.cc:194-243", "solve_system/solve_system.cc:331-576", "hypersurface/frob_matrix_J.cc: frob_matrix_J", "hypersurface_nd/hypersurface_nd.cc: frob_matrix_ND"]}
{"id": "C68", "title": "examples/frob.cc: what is read, computed and written", "statement": "A file with the seven lines of the help text is read as what it says, and a file with a prime and a vector as a quartic surface with the precisions of default_args; a vector of the wrong length or a list of absolute precisions of the wrong length fails an assertion, a singular polynomial stops the program; for a smooth polynomial P the program builds its object for a polynomial Q which is P after a change of variables of determinant 1 (non-degenerate) or P itself (degenerate), the matrix written is the Frobenius matrix of the lift of Q, the characteristic polynomial and the Picard number written are those determined by it, and the file written can be read back and starts with an input file for the same problem.", "quantifier": "all primes, all coefficient vectors, all precisions, all random streams, all thread counts and schedules; all texts", "why_tests_cant": "the file formats and the path from coefficients to the result involve all polynomials and all random choices; the repository only has three example inputs", "anchors": ["examples/frob.cc:57-164", "examples/frob.cc:166-275"]}
{"id": "C69", "title": "The Dwork family: examples/K3_dwork.cc and K3_dwork2.cc", "statement": "For an odd prime x^4+y^4+z^4+w^4+lambda xyzw is smooth modulo p iff it is non-degenerate iff lambda^4 <> 256 modulo p, and for p = 2 it is never smooth. In the singular case K3_dwork stops at an assertion and K3_dwork2 with a message; otherwise both build a non-degenerate object with 21 basis elements and print the Weil polynomial that the characteristic polynomial of the Frobenius matrix determines.", "quantifier": "all primes, all lambda, all thread counts and schedules", "why_tests_cant": "a statement about all primes and all parameters", "anchors": ["examples/K3_dwork.cc:23-78", "examples/K3_dwork2.cc:26-53"]}
{"id": "C70", "title": "operator<<= writes what Python and SAGE can read", "statement": "operator<<= writes a vector as the Python tuple of its entries and a polynomial as the dictionary from the tuples of exponents to the coefficients in the order of the map, so that no two polynomials are written alike; exceptions, shown to be such: a vector with exactly one entry is written as a number in parentheses, and the rows of a matrix are written by NTL without commas, which is no Python literal as soon as there are two columns.", "quantifier": "all vectors, all polynomials over Z and Z/M, all matrices", "why_tests_cant": "a round trip over all values; the repository never reads this output back", "anchors": ["tools.h:205-258"]}
{"id": "C71", "title": "The truncated series is the lift of Frobenius modulo p^N", "statement": "The series with the coefficients D_{j,m} computed by the Frobenius loops, cut after N terms, is the form x^(p(b+1)-1) Omega / f(x^p)^m, the image of x^b Omega / f^m under x_i -> x_i^p divided by p^n, up to multiples of p^N, and exactly so when N is at least the number of digits; one more term changes it by a multiple of p^N; a form with this property is unique up to multiples of p^N. So the columns returned by frob_matrix_J and frob_matrix_ND are coordinates of the class of such a form.", "quantifier": "all primes, all precisions, all polynomials, all pole orders m >= 1, all N, all monomials", "why_tests_cant": "an identity between rational functions for all polynomials", "anchors": ["hypersurface/frob_J_ZZ.cc:64-90", "hypersurface_nd/hypersurface_nd.cc: frob_ND_flint"]}
{"id": "C72", "title": "test_paths_J and test_paths_ND with the vectors they draw", "statement": "Whatever numbers are drawn, the starting vectors and directions that the self tests make from them are admissible, no assertion fails, and the tests return true unless a random search is still running; when every coordinate is drawn again and again the searches end. With no trials or no paths the assertions fail.", "quantifier": "all primes, all precisions, all objects made by the constructors, all sequences of random numbers, all numbers of trials and paths", "why_tests_cant": "the self tests draw a handful of paths; the claim is about all sequences of draws, and termination of a random loop", "anchors": ["dr/test_paths_J.cc:10-99", "dr_nd/dr_nd.cc:1574-1656"]}
{"id": "C73", "title": "What the test programs can tell", "statement": "The four programs which test the reductions never report a failure, end when smooth (non-degenerate) polynomials are drawn and the draws are fair, and end with PASS only if all their tests returned true. The other programs cannot fail as intended: test_invariance_J and test_invariance_ND compute both matrices from the same object and always pass if they end; test_JND_and_invariance ignores a difference between the two matrices; test_zeta_function passes exactly if the polynomials computed are not zero, so for every Frobenius routine whatsoever.", "quantifier": "all primes in the range of the programs, all random numbers, all schedules, and (for the negative parts) all routines in place of the one under test", "why_tests_cant": "a statement about the tests themselves, for all routines they may be run on", "anchors": ["dr/test/test_paths_J.cc:13-49", "dr/test/test_monomial_to_basis_J.cc:12-48", "dr_nd/test/test_paths_ND.cc:13-49", "dr_nd/test/test_monomial_to_basis_ND.cc:12-52", "hypersurface/test/test_invariance_J.cc:13-54", "hypersurface_nd/test/test_invariance_ND.cc:13-59", "hypersurface_nd/test/test_JND_and_invariance.cc:12-157", "wrapper/test/test_zeta_function.cc:14-100"]}
{"id": "C74", "title": "The digits of the Frobenius matrix", "statement": "For a column of pole order m with N terms let e be max(0, v - (n-1)), p^v the power of p in (p(m+N-1)-1)!. Every entry returned lies in [0, p^(K-e)). Two Frobenius matrices in that range are equal. frob_J, frob_ND, frob_matrix_J and frob_matrix_ND return exactly if there is a column (a matrix) with the defining property modulo p^K. Hence frob_matrix_J and frob_matrix_ND return for the same objects and then return equal matrices, also if digits are lost; whenever a matrix is returned with K' >= K digits it is returned with K digits, and its entries are those for K' modulo p^(K-e). With the precision chosen by zeta_function for abs > 0 a column keeps at least N_m + m - n digits.", "quantifier": "all primes, all precisions, all n, d and polynomials accepted by the constructors, all numbers of terms whose coefficients fit, all schedules and states of the tables", "why_tests_cant": "the exact division fails or loses digits only for some p, n, N; the tests fix few of them and compare no two precisions", "anchors": ["hypersurface/frob_J_ZZ_p.cc:257-279", "hypersurface/frob_J_ZZ.cc:283-305", "hypersurface_nd/hypersurface_nd.cc:247-268", "hypersurface_nd/hypersurface_nd.cc:431-453", "hypersurface_nd/hypersurface_nd.cc:751-776", "hypersurface/frob_matrix_J.cc:9-43", "wrapper/zeta_function.cc:30-110"]}
{"id": "C75", "title": "What the Frobenius functions return, column by column, and what test_K3p3 tests", "statement": "frob_J and frob_ND return the vector G exactly if G is the Frobenius column of the basis element asked for and its entries lie below p^(K-e), e the digits lost (C74), whatever was computed before. test_K3p3 reads the coefficients and the table written in it; its quartic is smooth over F_3; for every 21 x 21 table it passes exactly if column 0, column rand()%19+1 and column 20 of the table are the Frobenius columns of the lift with coefficients 0, 1, 2, with 10, 9 and 5 digits; quartics that are not smooth are refused. The other 18 columns are not looked at, and every wrong entry in the three columns is reported.", "quantifier": "all primes, precisions, n, d and polynomials accepted by the constructors, all states of the tables, all vectors G; for test_K3p3 all quartics over F_3, all tables, all random numbers, all implementations of the linear algebra", "why_tests_cant": "test_K3p3 itself looks at three columns of one surface; which vectors pass for an arbitrary quartic, table or random number is not tested", "anchors": ["hypersurface/test/test_K3p3.cc:17-101", "hypersurface/frob_J_ZZ.cc:11-307", "hypersurface_nd/hypersurface_nd.cc:271-454"]}
{"id": "C76", "title": "Rounding does not change the decisions taken in floating point", "statement": "For every floating point arithmetic whose operations have relative error at most u (u <= 2^-52 for p < 2^63, degree up to 1024, precisions up to 4096): the assertion of charpoly_frob holds if 2*degree*p^(dim*k/2) < k*p^prec, fails if the opposite strict inequality holds; charpoly_frob in floating point equals charpoly_frob with exact assertions whenever no two sides are equal; in particular for the precisions of default_args and every p >= 3. For p = 2 and every accepted (n,d) other than (2,6), (2,9) it returns for no matrix; for (2,6) and (2,9) two sides are equal and the result depends on the rounding. The loop test of geometric_picard meets the contract used in C43 when u <= 1/1000.", "quantifier": "all floating point operations meeting the error bound, all p, degrees, precisions in the ranges stated, all matrices", "why_tests_cant": "a test runs on one machine with one mathematical library and a few p; rounding matters only near equality of the two sides", "anchors": ["matrix/charpoly_frob.cc:68-74", "tools/geometric_picard.cc:51", "tools/geometric_picard.cc:91", "tools/default_args.cc"]}
{"id": "C77", "title": "The digits kept in the Frobenius matrix are enough for the characteristic polynomial", "statement": "Let Psi be a matrix over the p-adic integers, p >= 3, whose columns of pole order m are divisible by p^(n-m), and let the matrix Phi agree with it in the digits that the working precision and the numbers of terms leave (C74). With the values of default_args, and with those zeta_function chooses for any requested precision when it calls charpoly_frob, the coefficients of degree 0 < i < b of the characteristic polynomials agree modulo p^charpoly_prec[i]; so charpoly_frob returns the characteristic polynomial of Psi when that is an integer polynomial with Weil's properties. With a requested precision abs > 0 every column computed with N terms keeps at least N >= abs digits, and the matrix and all coefficients agree modulo p^abs.", "quantifier": "all primes p >= 3, all (n,d) in the tables, all requested precisions, all objects, all matrices", "why_tests_cant": "a loss of one digit in one column changes a coefficient only for some matrices; the tables would have to be tested for each p and each matrix", "anchors": ["tools/default_args.cc", "wrapper/zeta_function.cc:43-101", "matrix/charpoly_frob.cc:14-93"]}
{"id": "C78", "title": "The example inputs", "statement": "The three input files and the two texts in examples/ are read as the primes, precisions and polynomials they show; the polynomials are smooth modulo their primes, so no run stops with the message that the hypersurface is singular; the plane quartic of the input files is non-degenerate and no random number is used for it, for the other three polynomials the random search is started; the files for the curve and the surface have the precisions of default_args and end as C68 and C77 say, the two programs that call zeta_function as C65 and C77 say. The polynomial printed for every example is the Frobenius polynomial of the hypersurface; this is false for example_quartic_curve_modp.input, which asks for one digit of the matrix and keeps the precisions of three digits for the characteristic polynomial: what is printed for it is never the Frobenius polynomial of the curve.", "quantifier": "all random streams, thread counts and schedules, all eliminations that meet the contract; for the wrong precisions all primes p >= 11, all matrices with entries 0..p-1 and all Frobenius polynomials of genus 3 with positive coefficient of X^5", "why_tests_cant": "no test runs the examples, and a wrong polynomial can look like a Frobenius polynomial: it satisfies the functional equation and passes all assertions of charpoly_frob", "anchors": ["examples/example_quartic_curve.input", "examples/example_quartic_curve_modp.input", "examples/example_quartic_surface.input", "examples/zeta_function_wrapper_genus3.cc", "examples/zeta_function_wrapper_K3.cc", "examples/frob.cc:57-228"]}
{"id": "C79", "title": "Conversions between NTL, FLINT and arrays lose nothing", "statement": "Writing a vector to an array changes exactly the positions from the offset on, one per entry, and is undefined exactly when they do not fit; reading back the same number of positions gives the vector, through fmpz as well as directly. The lists u_list, v_list and G_list of frob_ND_flint, filled with vectors of length k at offsets j*k, give back vector i at offset i*k for every i. A matrix converted to a FLINT matrix of the same shape has the converted entries, and converting back gives the matrix; a FLINT matrix of another shape stops at an assertion. For FLINT matrices over one machine word the entries are reduced modulo the modulus m, and the round trip of every matrix modulo q is the identity if and only if q <= m.", "quantifier": "all vectors, arrays, offsets, numbers of vectors, matrices, moduli", "why_tests_cant": "an off-by-one in an offset shows only for some lengths and some thread counts, and values that happen to be equal hide it", "anchors": ["conv.h:27-89", "vec_int64.h:131-144", "hypersurface_nd/hypersurface_nd.cc:555-656"]}
{"id": "C80", "title": "Linear algebra over one machine word", "statement": "On reduced words nmod_vec_dot_compat returns the reduced scalar product, mul the reduced product of matrix and vector, and nmod_mat_sub the reduced difference, also when the result is the first or the second argument; every call of FLINT's word functions gets reduced arguments. solve_system_padic_flint for a modulus of one word, with its matrices of words, its conversions and its Newton iteration in place, returns what the computation modulo p^N returns (C20); the factor 2 is reduced whenever a Newton step is done.", "quantifier": "all moduli m > 0, all sizes, all matrices and vectors, with and without shared memory", "why_tests_cant": "an unreduced argument or a row overwritten too early gives wrong values only for some entries", "anchors": ["matrix.h:49-60", "matrix.h:112-119", "matrix.h:156-174", "solve_system/solve_system.cc:404", "solve_system/solve_system.cc:331-416"]}
{"id": "C81", "title": "Time differences", "statement": "The two terms timevaldiff_in_seconds adds are together the time from start to end in microseconds, for all values of the fields, and the second is in [0, 10^6]; the same in nanoseconds for timestamp_diff_in_seconds, where the second term is in [0, 10^9) if the fields are normalised.", "quantifier": "all start and end times, also end before start and fields out of range", "why_tests_cant": "the carries depend on when the clock is read", "anchors": ["timing.h:11-27", "timing.h:58-69"]}
{"id": "C82", "title": "Arguments outside the domain of the reductions stop at an assertion", "statement": "For a constructed object, get_reduction_matrix_J/ND return a matrix exactly for the pairs (u, v) in their domain (v of degree d; for J every nonzero entry of u meets a positive entry of v; for ND the degree of u is divisible by d), monomial_to_basis_J/ND return coordinates exactly for vectors of n+1 positive entries whose degree is divisible by d, and get_final_reduction_matrix_J returns a matrix exactly for 0 < k <= n; every other call, and every such call of the single and batched reductions over ZZ_p, ZZ and for flint and of the inclusion matrices, stops at an assertion before any table is read.", "quantifier": "all rings, objects, vectors u and v, numbers of steps and vectors G", "why_tests_cant": "The tests only make calls inside the domain; which of the infinitely many other calls stop is a statement about all of them.", "anchors": ["dr/get_reduction_matrix_J.cc:13-19", "dr/get_reduction_matrix_J_ZZ.cc:14-20", "dr/reduce_vector_J.cc:11-18", "dr/reduce_vector_J_ZZ.cc:11-18", "dr/reduce_vector_J_poly.cc:12-19", "dr/reduce_vector_J_poly_ZZ.cc:13-20", "dr/monomial_to_basis_J.cc:13-22", "dr/get_final_reduction_matrix_J.cc:12-13", "dr/get_inclusion_matrix_J.cc:17-22", "dr_nd/dr_nd.cc:390-398", "dr_nd/dr_nd.cc:607-615", "dr_nd/dr_nd.cc:694-703", "dr_nd/dr_nd.cc:1220-1228", "dr_nd/dr_nd.cc:1283-1288", "dr_nd/dr_nd.cc:1449-1459"]}
{"id": "C83", "title": "solve_system has one answer", "statement": "solve_system_zz_p and solve_system_padic return the same B and the same U whatever the implementation (FLINT or NTL), the elimination routine meeting its contract and the precision: U is the only matrix with (T | J) U = 1 whose rows at the columns of T depending modulo p on earlier columns are zero, and B is determined by T.", "quantifier": "all fields, all primes p, exponents N, matrices T, elimination routines meeting the contract, precisions of at least N", "why_tests_cant": "The tests compare the two implementations on random matrices; a difference could show only on matrices with a particular pattern of dependent columns, and other elimination routines are not available to them.", "anchors": ["solve_system/solve_system.cc:13-327", "solve_system/solve_system.cc:331-576"]}
{"id": "C84", "title": "The results do not depend on the linear algebra library", "statement": "isSmooth, isND, random_SL_matrix and find_change_of_variables (for the same random numbers), the constructors, frob_matrix_J, frob_matrix_ND, zeta_function, the programs frob.cc, K3_dwork.cc, K3_dwork2.cc and the test programs return the same result, or fail in the same way, whether NTL or FLINT does the linear algebra and whatever elimination, rank and determinant routine meeting the contract is used; FLINT's machine words included.", "quantifier": "all primes, polynomials, options, random numbers, orders of the threads, linear algebra routines meeting the contract", "why_tests_cant": "A build links one version of each library; two libraries agreeing on some inputs says nothing about matrices where the choice of pivots differs.", "anchors": ["solve_system/solve_system.cc:13-576", "dr/isSmooth.cc:6-57", "dr_nd/dr_nd.cc:1659-1736", "matrix/random_SL_matric.cc:12-43", "wrapper/zeta_function.cc:28-172", "examples/frob.cc:166-228"]}
{"id": "C85", "title": "The flint reductions in machine words compute the residues of the model", "statement": "For a modulus q of one machine word, matrices of size d*d and a vector with entries in [0, q) and at most q steps, reduce_vector_ND_poly_flint and finitediff_flint_nmod, with fmpz_get_ui, powers, products into buffers that are exchanged, differences in place and restricted to the boxes max_row and min_col, and the closing comparison, return exactly what the computation modulo q returns, or stop at the same assertion; no word function gets an argument that is not reduced, and what the buffers held before does not matter.", "quantifier": "all moduli 2 <= q < 2^64, all n, d > 0, matrices, vectors, numbers of steps up to q, contents of fresh memory", "why_tests_cant": "An exchange of buffers forgotten or a box one column too small gives the right value on many inputs; fresh memory is often zero in a test.", "anchors": ["dr_nd/dr_nd.cc:749-859", "dr_nd/dr_nd.cc:1740-1751", "dr_nd/dr_nd.cc:1858-1991"]}
{"id": "C86", "title": "frob_ND_flint in machine words is the computation modulo q", "statement": "For every modulus q >= 2, p <= q, object with cokernel monomials, table of powers, coordinate and precision, frob_ND_flint with all its reductions in machine words returns the vector and the table the computation in Z/q returns, or fails in the same way, whatever the fresh buffers hold: the matrices get_ND_poly_flint hands over and the vectors carried from pole order to pole order are reduced, and no reduction is asked for more than q steps. Hence the column of Frobenius under the conditions of C49, and the failing assertion on the Fermat cubic modulo 17.", "quantifier": "all q >= 2, p <= q, objects, tables, coordinates, precisions, contents of fresh memory", "why_tests_cant": "That no unreduced word ever reaches FLINT, on any input, is not visible in a result; FLINT does not check it.", "anchors": ["hypersurface_nd/hypersurface_nd.cc:456-777", "dr_nd/dr_nd.cc:688-859"]}
{"id": "C87", "title": "The threads of the parallel loops solve no linear system", "statement": "The threads of the loops of frob_matrix_ND and frob_matrix_J restore the modulus of ZZ_p but not the thread-local modulus of zz_p, which every linear solver reads. After compute_everything_ND (or compute_everything_J) no iteration solves a system: with any solver whatever in each thread, one that always fails included, with the branch of frob_ND_flint for several threads and any schedule of its inner loops, after any history of calls, the functions return the matrix and the table of powers the sequential computation with a working solver returns, and leave the dictionaries as the preparation left them.", "quantifier": "all constructed objects (1 <= n <= 61 for the non-degenerate class, n >= 1 for the other), histories, orders, inner schedules, precisions, solvers of the threads", "why_tests_cant": "A missing zz_p modulus shows only on a machine with several threads and on an input for which some dictionary entry was not prepared.", "anchors": ["hypersurface_nd/hypersurface_nd.cc:779-825", "hypersurface/frob_matrix_J.cc:14-46", "solve_system/solve_system.cc:37", "solve_system/solve_system.cc:353"]}
{"id": "C88", "title": "zeta_function does not depend on the number of threads", "statement": "For the same input and random numbers, if zeta_function returns a polynomial and a matrix with the sequential computation without dictionaries, then it returns the same polynomial and the same matrix with the dictionaries of a new object, for every number of threads, every order of the iterations of the parallel loop, every schedule of the inner loops of frob_ND_flint, every value of save_memory, and whatever the solvers of the threads do. In particular for the cubic x^3+y^3+z^3+yz^2 at p = 17 with the default options all of them return the polynomial of C65.", "quantifier": "all homogeneous integer polynomials, primes, options, numbers of threads, orders, schedules, solvers of the threads, random numbers", "why_tests_cant": "The number of schedules grows with the factorial of the number of basis elements, and a test machine runs with one number of threads.", "anchors": ["wrapper/zeta_function.cc:41-45", "wrapper/zeta_function.cc:136-152", "hypersurface_nd/hypersurface_nd.cc:779-825", "hypersurface/frob_matrix_J.cc:14-46"]}
{"id": "C89", "title": "Terms with coefficient zero change nothing", "statement": "The constructors, the reductions and the Frobenius matrices depend on the polynomial, not on the list of terms it is stored as. For two non-empty lists of terms of the same homogeneous polynomial and any linear algebra routine: the constructors of both classes fail in the same way or return objects that differ in the stored list only; compute_reduction_matrix_ND gives the same matrices for every direction; the condition on the finite differences of frob_ND_flint holds for one if it holds for the other; and frob_matrix_J and frob_matrix_ND return for one exactly if they return for the other, with equal matrices. change_of_variables leaves terms with coefficient zero, and examples/frob.cc applies it even with the identity matrix, so its objects are always built from such lists.", "quantifier": "all homogeneous polynomials, pairs of lists of terms of the same polynomial, rings, solvers, directions, tables of powers, orders of the parallel loops, numbers of terms whose coefficients fit", "why_tests_cant": "A test compares two lists for a few polynomials; a map entry with value zero is printed as nothing and is not noticed.", "anchors": ["tools.h:56-85", "dr/matrix_J.cc", "dr_nd/dr_nd.cc:194-243", "dr_nd/dr_nd.cc:863-1072", "examples/frob.cc:183-198", "hypersurface_nd/hypersurface_nd.cc:779-825"]}
{"id": "C90", "title": "The exponent vectors of the Frobenius functions stay in 64 bits", "statement": "If p (n + N - 1) d < 2^63, no sum, difference or multiple of exponent vectors, no sum of their entries and no product p e, d n, d p e or p (m + N - 1) in frob_J_ZZ, frob_J_ZZ_p, frob_ND_ZZ, frob_ND_ZZ_p and frob_ND_flint leaves the range of int64_t, for every loop variant: with undefined behaviour for every overflow the functions, and frob_matrix_J and frob_matrix_ND, do exactly the same as with unbounded integers, whether they return or fail. Conversely a term u with an entry x such that p x >= 2^63 makes each of the functions of hypersurface_non_degenerate overflow. For whole runs: if f^(N-1) has a monomial w with p (w + e_i + 1)_j >= 2^63 for some j, none of the five functions returns (frob_ND_flint: if the coefficient of the new term is not zero). Hence zeta_function returns a value if and only if it returns it with 64-bit exponent vectors, when the bound holds for the numbers of terms it chooses; with the default options this is the case for every prime below 2^54. With any options and 9 p (3 + max(40, abs_precision)) < 2^63 the same holds when also the products p (i + N_i) - 1 and 100 p + 100 and the degree are computed in 64 bits.", "quantifier": "all smooth (non-degenerate) hypersurfaces an object can be built for, p >= 1, coordinates, precisions, loop variants, tables of powers left by earlier calls, orders of the parallel loop", "why_tests_cant": "A run with p near the bound takes p reductions per term and does not end; a test cannot come near an overflow.", "anchors": ["vec_int64.h:43-68", "vec_int64.h:94-113", "vec_int64/tweak.cc:11-19", "hypersurface/frob_J_ZZ.cc:11-305", "hypersurface/frob_J_ZZ_p.cc:11-279", "hypersurface/frob_matrix_J.cc:14-46", "hypersurface_nd/hypersurface_nd.cc:62-825", "dr_nd/dr_nd.cc:387-398", "wrapper/zeta_function.cc:28-172"]}
