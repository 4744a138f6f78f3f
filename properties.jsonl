{"id": "C01", "title": "Integer gcd", "statement": "gcd(a,b) terminates and returns the greatest common divisor of a and b, for every pair of ints for which it is defined; the result is non-negative.", "quantifier": "all pairs of 32-bit ints", "why_tests_cant": "2^64 input pairs; the corner cases (zero arguments with a negative partner, INT_MIN) are exactly those samples omit", "anchors": ["spffl/intmath/int_gcd.cpp: int_gcd"]}
{"id": "C02", "title": "Extended gcd (Bezout)", "statement": "int_ext_gcd(a,b,m,n) returns d with d = a*m + b*n, d a greatest common divisor up to sign, and no intermediate product overflows; b = 0 is outside its domain.", "quantifier": "all pairs of 32-bit ints with b != 0 (a != INT_MIN)", "why_tests_cant": "absence of overflow in the running coefficients is a bound over every Euclidean run, not over sampled pairs", "anchors": ["spffl/intmath/int_gcd.cpp: int_ext_gcd"]}
{"id": "C03", "title": "Least common multiple", "statement": "int_lcm(a,b) is the least common multiple whenever that is representable.", "quantifier": "all pairs of ints", "why_tests_cant": "the failing pairs (product overflows although the lcm fits; both zero) are a thin set", "anchors": ["spffl/intmath/int_gcd.cpp: int_lcm"]}
{"id": "C04", "title": "Integer power", "statement": "int_power(b,e) = b^e for every e >= 0 for which b^e is representable.", "quantifier": "all b, all e >= 0", "why_tests_cant": "the last, unused squaring overflows only for particular (b,e)", "anchors": ["spffl/intmath/int_power.cpp: int_power"]}
{"id": "C05", "title": "Integer square roots", "statement": "int_sqrt_floor(n)^2 <= n < (int_sqrt_floor(n)+1)^2, int_sqrt_ceil(n) is the least r with n <= r^2, negative n is rejected with an exception, and the search terminates.", "quantifier": "all 32-bit ints", "why_tests_cant": "binary-search invariants hold for all 2^31 inputs or fail at isolated ones", "anchors": ["spffl/intmath/int_sqrt.cpp: int_sqrt_floor, int_sqrt_ceil"]}
{"id": "C06", "title": "Euler totient of an integer", "statement": "int_totient(n) is the number of units of Z/n, for every n >= 1.", "quantifier": "all n >= 1", "why_tests_cant": "unbounded n; n = 1 is a corner", "anchors": ["spffl/intmath/int_totient.cpp: int_totient"]}
{"id": "C07", "title": "Primality test", "statement": "is_prime(n) is true exactly when |n| is prime, for every int n.", "quantifier": "all 32-bit ints", "why_tests_cant": "2^32 inputs, correctness rests on completeness of a 6542-entry table", "anchors": ["spffl/intmath/is_prime.cpp: is_prime, isprime_table, isprime_trial", "spffl/intmath/primes_16.h: primes_16"]}
{"id": "C08", "title": "Prime table", "statement": "nth_prime(k) is the k-th prime for 1 <= k <= 6542 and an exception otherwise.", "quantifier": "all k", "why_tests_cant": "every entry of the table, and that no prime is missing", "anchors": ["spffl/intmath/is_prime.cpp: nth_prime", "spffl/intmath/primes_16.h"]}
{"id": "C09", "title": "Bit positions and base-2 logarithms", "statement": "find_msb / find_lsb return the index of the most / least significant set bit for every non-zero word; floor and ceiling log2 agree with the mathematical logarithms.", "quantifier": "all non-zero 16/32/64-bit words", "why_tests_cant": "2^64 inputs through a nibble table", "anchors": ["spffl/intmath/log2.cpp"]}
{"id": "C10", "title": "Base-10 logarithm", "statement": "calc_log10_unsigned_floor(n) = floor(log10 n) for every n > 0.", "quantifier": "all 32-bit unsigned n", "why_tests_cant": "2^32 inputs", "anchors": ["spffl/intmath/log10.cpp"]}
{"id": "C11", "title": "Integer factorization", "statement": "int_factor(n) returns factors that are all prime, strictly increasing, with positive counts, and whose product with the unit is n, for every non-zero n.", "quantifier": "all ints n", "why_tests_cant": "2^32 inputs; needs the completeness of the prime table", "anchors": ["spffl/factorization/int_factor.cpp: int_factor", "spffl/containers/tfacinfo.h: insert_factor, insert_unit, unfactor"]}
{"id": "C12", "title": "Residue arithmetic is Z/m arithmetic", "statement": "For residues mod m, +, -, unary -, * and mixed residue/int operations yield the canonical representative (0 <= r < m) of the ring result.", "quantifier": "all moduli m >= 1 and all residues", "why_tests_cant": "products overflow only for moduli above a threshold no small test reaches", "anchors": ["spffl/intmath/intmod_t.cpp: operator+, operator-, operator*"]}
{"id": "C13", "title": "Modular reciprocal", "statement": "recip reports success exactly for units, and then the product with the result is one; division throws exactly on non-units. The answer does not depend on which reciprocals were computed earlier.", "quantifier": "all moduli, all residues, all histories of calls (the totient cache is shared static state)", "why_tests_cant": "history-dependent cache", "anchors": ["spffl/intmath/intmod_t.cpp: recip, operator/, operator%"]}
{"id": "C14", "title": "Modular exponentiation", "statement": "a.exp(e) is a^e for e > 0 and the |e|-th power of the inverse for e < 0; 0^0 and negative powers of non-units throw.", "quantifier": "all residues, all int exponents", "why_tests_cant": "unbounded exponents, overflow at large moduli", "anchors": ["spffl/intmath/intmod_t.cpp: exp"]}
{"id": "C15", "title": "Mixing moduli is always rejected", "statement": "Any binary arithmetic or ordering operation on residues with different or unspecified moduli throws and never yields a value.", "quantifier": "all pairs of operands and all binary operations", "why_tests_cant": "must hold for every operation and pair", "anchors": ["spffl/intmath/intmod_t.cpp: check_moduli", "spffl/polynomials/f2_polymod_t.cpp: check_moduli"]}
{"id": "C16", "title": "Reading a residue canonicalises it", "statement": "Reading any integer text into a residue object yields the canonical representative, so it equals the residue constructed from that integer.", "quantifier": "all integer inputs and moduli", "why_tests_cant": "negative inputs only", "anchors": ["spffl/intmath/intmod_t.cpp: operator>>"]}
{"id": "C17", "title": "Rational arithmetic", "statement": "intrat_t +, -, *, / give the exact rational result in lowest terms with positive denominator, whenever the cross products are representable; zero denominators throw.", "quantifier": "all rationals with 32-bit parts", "why_tests_cant": "overflow and sign normalisation corners", "anchors": ["spffl/intmath/intrat_t.cpp"]}
{"id": "C18", "title": "F2 polynomial addition", "statement": "a+b (= a-b) is the polynomial sum; the stored representation stays canonical.", "quantifier": "all polynomials of any degree (any number of 64-bit words)", "why_tests_cant": "word-boundary degrees are unbounded", "anchors": ["spffl/polynomials/f2_poly_t.cpp: operator+, operator-"]}
{"id": "C19", "title": "F2 polynomial multiplication", "statement": "a*b is the polynomial product for all operands the class can produce, with no memory access outside either operand.", "quantifier": "all polynomials of any degree", "why_tests_cant": "memory safety over all word counts; non-canonical zeros produced by the class itself", "anchors": ["spffl/polynomials/f2_poly_t.cpp: operator*"]}
{"id": "C20", "title": "F2 Euclidean division", "statement": "quot_and_rem gives q, r with a = q*d + r and deg r < deg d; dividing by zero throws.", "quantifier": "all dividends, all divisors", "why_tests_cant": "multi-word shifts over unbounded degree", "anchors": ["spffl/polynomials/f2_poly_t.cpp: quot_and_rem, operator/, operator%"]}
{"id": "C21", "title": "F2 gcd", "statement": "gcd(a,b) terminates and divides both arguments and is divisible by every common divisor.", "quantifier": "all pairs of polynomials", "why_tests_cant": "unbounded", "anchors": ["spffl/polynomials/f2_poly_t.cpp: gcd"]}
{"id": "C22", "title": "F2 extended gcd", "statement": "ext_gcd returns g = a*m + b*n with g = gcd(a,b).", "quantifier": "all pairs of polynomials", "why_tests_cant": "unbounded", "anchors": ["spffl/polynomials/f2_poly_t.cpp: ext_gcd"]}
{"id": "C23", "title": "F2 polynomial powers", "statement": "exp(e) is the e-th power; zero and negative exponents of the zero polynomial, and negative exponents of non-constants, throw.", "quantifier": "all polynomials, all exponents", "why_tests_cant": "unbounded", "anchors": ["spffl/polynomials/f2_poly_t.cpp: exp"]}
{"id": "C24", "title": "F2 formal derivative and square root", "statement": "deriv is the formal derivative; square_root succeeds exactly on perfect squares and returns the root; deriv is zero exactly on squares.", "quantifier": "all polynomials", "why_tests_cant": "bits moving across word boundaries, unbounded degree", "anchors": ["spffl/polynomials/f2_poly_t.cpp: deriv, square_root"]}
{"id": "C25", "title": "F2 evaluation", "statement": "eval(c) is the value of the polynomial at c in F2.", "quantifier": "all polynomials, all ints c", "why_tests_cant": "unbounded", "anchors": ["spffl/polynomials/f2_poly_t.cpp: eval"]}
{"id": "C26", "title": "F2 comparison is the numeric total order", "statement": "== holds exactly for equal polynomials, and <,<=,>,>= agree with the integer order of the bit patterns (so sorting and searching are well defined).", "quantifier": "all pairs", "why_tests_cant": "unbounded word counts, operands with different word counts", "anchors": ["spffl/polynomials/f2_poly_t.cpp: cmp, operator==, operator<"]}
{"id": "C27", "title": "F2 increment enumerates every polynomial", "statement": "Repeated increment starting from zero visits every polynomial exactly once in increasing order.", "quantifier": "all polynomials", "why_tests_cant": "carry propagation through any number of words", "anchors": ["spffl/polynomials/f2_poly_t.cpp: increment"]}
{"id": "C28", "title": "F2 hexadecimal round trip", "statement": "Printing a polynomial and reading the text back yields the same polynomial; a digit string denotes its base-16 value.", "quantifier": "all polynomials, all hex strings", "why_tests_cant": "unbounded lengths", "anchors": ["spffl/polynomials/f2_poly_t.cpp: operator<<, operator>>, from_string"]}
{"id": "C29", "title": "F2 coefficient access", "statement": "After setting coefficient i, reading i returns the value set and all other coefficients are unchanged.", "quantifier": "all polynomials, all positions i >= 0, both values", "why_tests_cant": "depends on i modulo 64", "anchors": ["spffl/polynomials/f2_poly_t.cpp: get_coeff, set_coeff, set_bit, bit_at"]}
{"id": "C30", "title": "F2 residue ring", "statement": "Arithmetic on f2_polymod_t is arithmetic in F2[x]/(m) on canonical representatives.", "quantifier": "all moduli of positive degree and all residues", "why_tests_cant": "unbounded", "anchors": ["spffl/polynomials/f2_polymod_t.cpp: operator+, operator-, operator*"]}
{"id": "C31", "title": "F2 residue reciprocal", "statement": "recip succeeds exactly when residue and modulus are coprime, and returns the inverse; division throws exactly otherwise; over an irreducible modulus every non-zero residue is invertible.", "quantifier": "all moduli and residues", "why_tests_cant": "unbounded", "anchors": ["spffl/polynomials/f2_polymod_t.cpp: recip, operator/"]}
{"id": "C32", "title": "F2 residue powers", "statement": "exp(e) agrees with the ring power, including negative exponents of units.", "quantifier": "all moduli, residues, exponents", "why_tests_cant": "unbounded", "anchors": ["spffl/polynomials/f2_polymod_t.cpp: exp"]}
{"id": "C33", "title": "Factor lists are sorted multisets", "statement": "After any sequence of insertions, merges and powers the stored factors are strictly increasing and each multiplicity is the sum of what was inserted.", "quantifier": "all operation sequences", "why_tests_cant": "arbitrary histories", "anchors": ["spffl/containers/tfacinfo.h: insert_factor, merge, exp_all"]}
{"id": "C34", "title": "Unfactoring is a homomorphism", "statement": "unfactor is the product of the inserted unit and factors; merge multiplies and exp_all raises to a power.", "quantifier": "all factor lists", "why_tests_cant": "arbitrary histories", "anchors": ["spffl/containers/tfacinfo.h: unfactor, merge, exp_all"]}
{"id": "C35", "title": "Divisor enumeration", "statement": "For the factorization of n, get_all_divisors lists every positive divisor exactly once, ascending; get_num_divisors is their number; maximal proper divisors are n/p for p prime dividing n.", "quantifier": "all positive ints n", "why_tests_cant": "enumeration completeness for every n; intermediate overflow corners", "anchors": ["spffl/containers/tfacinfo.h: get_num_divisors, get_kth_divisor, get_all_divisors, get_maximal_proper_divisors"]}
{"id": "C36", "title": "Polynomials over a coefficient field: ring operations", "statement": "+, -, * on fp_poly_t / f2n_poly_t / q_poly_t equal the polynomial operations; degree bookkeeping never leaves a zero leading coefficient.", "quantifier": "all coefficient fields, all polynomials", "why_tests_cant": "unbounded degree, cancellation of leading terms", "anchors": ["spffl/polynomials/fp_poly_t.cpp", "spffl/polynomials/f2n_poly_t.cpp", "spffl/polynomials/q_poly_t.cpp"]}
{"id": "C37", "title": "Polynomials over a coefficient field: negation", "statement": "-a + a = 0 for every polynomial a.", "quantifier": "all polynomials", "why_tests_cant": "degree at least 1", "anchors": ["spffl/polynomials/fp_poly_t.cpp: operator-(void)", "spffl/polynomials/f2n_poly_t.cpp", "spffl/polynomials/q_poly_t.cpp"]}
{"id": "C38", "title": "Polynomials over a coefficient field: Euclidean division", "statement": "quot_and_rem gives a = q*d + r with deg r < deg d whenever the leading coefficient of d is a unit, throws for zero d or non-unit leader.", "quantifier": "all polynomials", "why_tests_cant": "unbounded", "anchors": ["spffl/polynomials/fp_poly_t.cpp: quot_and_rem"]}
{"id": "C39", "title": "Polynomials over a coefficient field: gcd and Bezout", "statement": "gcd and ext_gcd terminate with a greatest common divisor, and g = a*m + b*n.", "quantifier": "all pairs over a field", "why_tests_cant": "unbounded", "anchors": ["spffl/polynomials/fp_poly_t.cpp: gcd, ext_gcd"]}
{"id": "C40", "title": "Evaluation and derivative over a coefficient field", "statement": "eval is polynomial evaluation and deriv the formal derivative.", "quantifier": "all polynomials and points", "why_tests_cant": "unbounded", "anchors": ["spffl/polynomials/fp_poly_t.cpp: eval, deriv"]}
{"id": "C41", "title": "Fp residue ring", "statement": "fp_polymod_t arithmetic is arithmetic in Fp[x]/(m); scalar multiplication multiplies the residue.", "quantifier": "all primes, moduli, residues, scalars", "why_tests_cant": "unbounded", "anchors": ["spffl/polynomials/fp_polymod_t.cpp", "spffl/polynomials/fpn_polymod_t.cpp"]}
{"id": "C42", "title": "Vectors and matrices: ring laws", "statement": "Matrix +, -, *, transpose, matrix*vector equal the mathematical operations; mismatched dimensions throw.", "quantifier": "all dimensions, all entries", "why_tests_cant": "unbounded dimensions", "anchors": ["spffl/containers/tmatrix.h", "spffl/containers/tvector.h"]}
{"id": "C43", "title": "Row reduction", "statement": "row_echelon_form yields a reduced matrix with the same row space (same kernel), and the rank reported is the rank of the matrix.", "quantifier": "all matrices over any field", "why_tests_cant": "unbounded dimensions", "anchors": ["spffl/containers/tmatrix.h: row_reduce_below, row_echelon_form, get_rank"]}
{"id": "C44", "title": "Determinant", "statement": "det is the determinant for every square matrix over a field.", "quantifier": "all square matrices", "why_tests_cant": "sign and scalar bookkeeping under every pivot pattern", "anchors": ["spffl/containers/tmatrix.h: det"]}
{"id": "C45", "title": "Kernel basis", "statement": "get_kernel_basis returns linearly independent vectors spanning exactly the kernel; it reports no basis exactly when the kernel is zero.", "quantifier": "all matrices over any field", "why_tests_cant": "unbounded", "anchors": ["spffl/containers/tmatrix.h: get_kernel_basis"]}
{"id": "C46", "title": "Matrix inverse", "statement": "inverse succeeds exactly for invertible square matrices and returns the two-sided inverse.", "quantifier": "all square matrices", "why_tests_cant": "unbounded", "anchors": ["spffl/containers/tmatrix.h: inverse, paste, split"]}
{"id": "C47", "title": "Linear solve", "statement": "solve_unique returns true exactly when A x = b has a unique solution, and then x is that solution.", "quantifier": "all systems", "why_tests_cant": "unbounded", "anchors": ["spffl/containers/tmatrix.h: solve_unique"]}
{"id": "C48", "title": "Matrix powers", "statement": "exp(n) is the n-th power, negative powers use the inverse.", "quantifier": "all square matrices, all n", "why_tests_cant": "unbounded", "anchors": ["spffl/containers/tmatrix.h: exp, posexp"]}
{"id": "C49", "title": "Assignment copies safely", "statement": "Assigning one vector to another of a different size makes them equal and never writes outside allocated storage.", "quantifier": "all pairs of sizes and histories", "why_tests_cant": "memory safety under all size histories", "anchors": ["spffl/containers/tvector.h: operator=", "spffl/bits/bit_vector_t.cpp: operator="]}
{"id": "C50", "title": "Bit vectors behave as vectors over F2", "statement": "Fill construction, element access, addition, dot product and equality on bit vectors agree with the vector space F2^n for every length n.", "quantifier": "all lengths, all contents", "why_tests_cant": "all lengths modulo 64 incl. partially used last word", "anchors": ["spffl/bits/bit_vector_t.cpp"]}
{"id": "C51", "title": "Bit matrix rank and kernel", "statement": "Over F2, bit_matrix row reduction computes the rank, and the kernel basis is a basis of the kernel.", "quantifier": "all dimensions and contents", "why_tests_cant": "unbounded", "anchors": ["spffl/bits/bit_matrix_t.cpp: row_echelon_form, get_rank, get_kernel_basis"]}
{"id": "C52", "title": "Bit matrix inverse", "statement": "inverse of an invertible bit matrix is its inverse.", "quantifier": "all square bit matrices", "why_tests_cant": "all n", "anchors": ["spffl/bits/bit_matrix_t.cpp: inverse, paste"]}
{"id": "C53", "title": "F2 polynomial factorization", "statement": "f2_poly_factor(f) terminates and returns irreducible factors, strictly sorted, whose product is f, for every f of degree >= 1.", "quantifier": "all polynomials of any degree", "why_tests_cant": "unbounded; correctness of Berlekamp splitting at every node", "anchors": ["spffl/factorization/f2_poly_factor.cpp: f2_poly_factor, f2_poly_pre_berlekamp, f2_poly_berlekamp"]}
{"id": "C54", "title": "F2 irreducibility test", "statement": "f2_poly_is_irreducible(f) is true exactly when f is irreducible.", "quantifier": "all polynomials", "why_tests_cant": "unbounded", "anchors": ["spffl/factorization/f2_poly_factor.cpp: f2_poly_is_irreducible"]}
{"id": "C55", "title": "Least irreducible search", "statement": "f2_poly_find_irreducible(d) terminates and returns the numerically least irreducible polynomial of degree d.", "quantifier": "all degrees d >= 1", "why_tests_cant": "existence for every degree", "anchors": ["spffl/factorization/f2_poly_factor.cpp: f2_poly_find_irreducible"]}
{"id": "C56", "title": "Fp polynomial factorization", "statement": "fp_poly_factor(f) returns monic irreducible factors with multiplicity whose product with the unit is f.", "quantifier": "all primes p (no overflow), all polynomials", "why_tests_cant": "unbounded", "anchors": ["spffl/factorization/fp_poly_factor.cpp"]}
{"id": "C57", "title": "F_{2^n} polynomial factorization", "statement": "f2n_poly_factor(f) returns monic irreducible factors whose product with the unit is f.", "quantifier": "all fields F_{2^n}, all polynomials", "why_tests_cant": "unbounded", "anchors": ["spffl/factorization/f2n_poly_factor.cpp"]}
{"id": "C58", "title": "Totient of an F2 polynomial", "statement": "f2_poly_totient(f) is the number of units of F2[x]/(f) whenever representable.", "quantifier": "all f of degree >= 1", "why_tests_cant": "unbounded; int shifts", "anchors": ["spffl/factorization/f2_poly_totient.cpp"]}
{"id": "C59", "title": "Multiplicative order", "statement": "f2_polymod_order / fp_order return the least e >= 1 with a^e = 1, throw exactly on non-units.", "quantifier": "all moduli and residues within int range", "why_tests_cant": "order is minimal over all exponents", "anchors": ["spffl/units/f2_polymod_units.cpp: f2_polymod_order", "spffl/units/fp_units.cpp: fp_order"]}
{"id": "C60", "title": "Generators", "statement": "find_generator returns true exactly when the unit group is cyclic, with an element generating it.", "quantifier": "all moduli", "why_tests_cant": "existence quantifier over group", "anchors": ["spffl/units/f2_polymod_units.cpp: f2_polymod_find_generator", "spffl/units/fp_units.cpp: fp_find_generator"]}
{"id": "C61", "title": "Discrete logarithm", "statement": "log(g,a) returns e with g^e = a whenever a lies in the group generated by g, else throws.", "quantifier": "all moduli, all g, a", "why_tests_cant": "baby-step/giant-step covering of every exponent", "anchors": ["spffl/units/f2_polymod_units.cpp: f2_polymod_log", "spffl/units/fp_units.cpp: fp_log"]}
{"id": "C62", "title": "Primitivity and period", "statement": "f2_poly_is_primitive(m) is true exactly when x generates all units mod m; f2_poly_period(m) is the order of x mod m, or 0 when x divides m.", "quantifier": "all m of positive degree", "why_tests_cant": "unbounded", "anchors": ["spffl/units/f2_polymod_units.cpp: f2_poly_is_primitive, f2_poly_period"]}
{"id": "C63", "title": "Companion matrix", "statement": "The companion matrix of a monic polynomial has that polynomial as characteristic polynomial and satisfies it.", "quantifier": "all monic polynomials", "why_tests_cant": "unbounded dimension", "anchors": ["spffl/linalg/f2_linear_algebra.cpp: f2_companion_matrix", "spffl/linalg/fp_linear_algebra.cpp: fp_companion_matrix"]}
{"id": "C64", "title": "Characteristic polynomial over F2", "statement": "f2_char_poly(A) is det(A - x I).", "quantifier": "all square matrices", "why_tests_cant": "unbounded", "anchors": ["spffl/linalg/f2_linear_algebra.cpp: f2_char_poly"]}
{"id": "C65", "title": "Minimal and characteristic polynomial of a field element", "statement": "The minimal/characteristic polynomial computed from the Frobenius orbit has coefficients in F2, vanishes at the element, is irreducible / has degree n.", "quantifier": "all irreducible moduli, all elements", "why_tests_cant": "unbounded", "anchors": ["spffl/linalg/f2_linear_algebra.cpp: f2_polymod_min_poly, f2_polymod_char_poly", "spffl/linalg/min_char_polys.cpp: f2_polymod_minimal_polynomial"]}
{"id": "C66", "title": "64-bit hash is a bijection", "statement": "psdes_hash_64 is a permutation of 64-bit words, hence distinct states give distinct outputs.", "quantifier": "all 2^64 words", "why_tests_cant": "2^64 inputs", "anchors": ["spffl/bitrand/psdes.cpp: psdes_hash_64"]}
{"id": "C67", "title": "Generator period", "statement": "The state sequence of the 64-bit generator has period exactly 2^64 from every seed, and over one period each 64-bit output occurs exactly once.", "quantifier": "all seeds, 2^64 steps", "why_tests_cant": "2^64-step histories", "anchors": ["spffl/bitrand/psdes.cpp: iran64_r"]}
{"id": "C68", "title": "Random elements", "statement": "For every outcome of the bit source, random polynomials are canonical and have exactly the requested degree, with the words drawn as lower coefficients; random residues are canonical, and every residue of a polynomial ring is the outcome of exactly one choice of the words drawn after the first.", "quantifier": "all outputs of the bit source, all moduli (residues of polynomials over Fp: primes up to 46341)", "why_tests_cant": "probabilistic; no test can see that every outcome is possible and equally so", "anchors": ["spffl/random/int_random.cpp", "spffl/random/intmod_random.cpp", "spffl/random/f2_poly_random.cpp", "spffl/random/f2_polymod_random.cpp", "spffl/random/fp_poly_random.cpp", "spffl/random/fp_polymod_random.cpp", "spffl/random/f2n_poly_random.cpp", "spffl/random/f2n_polymod_random.cpp"]}
{"id": "C69", "title": "Tokenizer", "statement": "tokenize returns the number of maximal runs of non-separator characters, cut off at the cap; its pointers lead to exactly these runs, in order, as C strings in the line as it is left; count_tokens is their number.", "quantifier": "all lines, all separator sets, all caps", "why_tests_cant": "unbounded strings; the line is cut up in place", "anchors": ["spffl/base/tokenize.cpp: tokenize, count_tokens"]}
{"id": "C70", "title": "Element listings", "statement": "The listing functions return each element selected (all polynomials of a degree; all residues, units, non-units, multiples of an element, elements relatively prime to it) exactly once, in ascending order, and nothing else.", "quantifier": "all moduli, selections and elements; Z, F2[x], Fp[x], F2^n[x]", "why_tests_cant": "unbounded; the size of the result is computed separately from its contents", "anchors": ["spffl/list/list_elements.cpp: intmod_list, intmod_glist, f2_poly_list, fp_poly_list, f2n_poly_list, f2_polymod_list, f2_polymod_glist, fp_polymod_list, f2n_polymod_list"]}
{"id": "C71", "title": "Cyclotomic polynomials", "statement": "get_cyclo_qpoly(n) is the n-th cyclotomic polynomial whenever coefficients stay representable, irrespective of memoised history; the variants over F2, Fp, F2^n and Fp^n are the cyclotomic polynomials over these fields.", "quantifier": "all n, all call histories", "why_tests_cant": "unbounded; shared memo table", "anchors": ["spffl/q_cyclotomic/cyclo_poly.cpp: get_cyclo_qpoly, get_cyclo_f2_poly, get_cyclo_fp_poly, get_cyclo_f2n_poly, get_cyclo_fpn_poly"]}
{"id": "C72", "title": "Command interpolation", "statement": "The bracket scan accepts exactly the balanced argument lists and finds the matching bracket; a balanced list is evaluated to the same list with every bracketed group replaced by the whitespace-separated tokens of the output of its command; unbalanced lists are refused; no bracket survives.", "quantifier": "all argument lists, all command outputs", "why_tests_cant": "unbounded nesting, arbitrary command outputs", "anchors": ["spffl/cli_parser/cmd_interp.cpp"]}
{"id": "C73", "title": "Population count", "statement": "count_one_bits returns the number of set bits for every word.", "quantifier": "all words", "why_tests_cant": "2^32 inputs through a table", "anchors": ["spffl/bits/count_bits.cpp"]}
{"id": "C74", "title": "Stack is LIFO", "statement": "Pops return pushed elements in reverse order for any interleaving of pushes and pops across regrowth; popping an empty stack reports failure and changes nothing; a copy is independent of its original; no access leaves the allocated blocks, none is used after it has been freed.", "quantifier": "all programs creating, copying, using and destroying any number of stacks", "why_tests_cant": "arbitrary histories", "anchors": ["spffl/containers/tstack.h"]}
{"id": "C75", "title": "Rational functions over F2", "statement": "Arithmetic and powers of ratios of F2 polynomials are those of the fraction field, results are in lowest terms, equality is equality of fractions, division by zero is refused.", "quantifier": "all fractions, all exponents", "why_tests_cant": "unbounded", "anchors": ["spffl/rationals/f2_polyrat_t.cpp"]}
{"id": "C76", "title": "Irreducibility over Fp and F_{2^n}", "statement": "The irreducibility tests answer exactly whether the polynomial is irreducible; the searches terminate and return the least irreducible polynomial of the degree, which is monic.", "quantifier": "all primes p up to 46341, all fields up to 2^30, all polynomials, all degrees", "why_tests_cant": "existence for every degree, unbounded search", "anchors": ["spffl/factorization/fp_poly_factor.cpp: fp_poly_is_irreducible, fp_poly_find_irr", "spffl/factorization/f2n_poly_factor.cpp: f2n_poly_is_irreducible, f2n_poly_find_irr"]}
{"id": "C77", "title": "Roots over F_{2^n}", "statement": "f2n_poly_roots returns every root of the polynomial exactly once, and reports that there are none exactly when there are none.", "quantifier": "all fields F_{2^n} up to 2^30, all polynomials", "why_tests_cant": "unbounded", "anchors": ["spffl/factorization/f2n_poly_factor.cpp: f2n_poly_roots"]}
{"id": "C78", "title": "Totient over Fp and F_{2^n}", "statement": "fp_poly_totient and f2n_poly_totient return the number of residues prime to the polynomial whenever that number is representable.", "quantifier": "all primes, fields and polynomials of positive degree", "why_tests_cant": "unbounded; int powers", "anchors": ["spffl/factorization/fp_poly_totient.cpp", "spffl/factorization/f2n_poly_totient.cpp"]}
{"id": "C79", "title": "Search for primitive polynomials", "statement": "f2_poly_find_prim(d) terminates and returns the least polynomial of degree d modulo which x generates the units (irreducible if asked for); the random search returns only such polynomials.", "quantifier": "all degrees, all outputs of the random source", "why_tests_cant": "existence for every degree, unbounded search", "anchors": ["spffl/units/f2_polymod_units.cpp: f2_poly_find_prim, f2_poly_random_prim"]}
{"id": "C80", "title": "Characteristic polynomial over Fp and F2^n", "statement": "fp_char_poly and f2_polymod_characteristic_polynomial(matrix) return det(t I - A).", "quantifier": "all square matrices, all primes up to 46341, all irreducible moduli", "why_tests_cant": "unbounded dimension", "anchors": ["spffl/linalg/fp_linear_algebra.cpp: fp_char_poly", "spffl/linalg/f2_polymod_linear_algebra.cpp: f2_polymod_characteristic_polynomial"]}
{"id": "C81", "title": "Determinant by Euclidean-domain elimination", "statement": "tmatrix::ed_det of a square matrix of polynomials is its determinant; a non-square matrix is rejected.", "quantifier": "all square matrices over F2[x], Fp[x], F2^n[y]", "why_tests_cant": "unbounded dimension and degree; the elimination divides rows by common factors and tracks a scalar fraction", "anchors": ["spffl/containers/tmatrix.h: ed_det, ed_row_reduce_below_with_scalar", "spffl/containers/tvector.h: vgcd"]}
{"id": "C82", "title": "Vectors and matrices from base representations", "statement": "The vector (matrix) built from an integer holds its lowest digits in base q, highest first.", "quantifier": "all integers, lengths and fields", "why_tests_cant": "unbounded lengths; word-size edge cases of the base", "anchors": ["spffl/linalg/f2_linear_algebra.cpp: f2_vector_from_base_rep, f2_matrix_from_base_rep", "spffl/linalg/fp_linear_algebra.cpp: fp_vector_from_base_rep", "spffl/linalg/f2_polymod_linear_algebra.cpp: ft_vector_from_base_rep"]}
{"id": "C83", "title": "Row echelon form and inverse of polynomial matrices", "statement": "tmatrix::ed_row_echelon_form returns an echelon matrix with zeros above the pivots, rows without a common factor, and the kernel and rank of the input; tmatrix::ed_inverse succeeds exactly for matrices invertible over the polynomial ring and returns the inverse; non-square matrices are rejected.", "quantifier": "all non-zero matrices (echelon form), all square matrices (inverse) over F2[x], Fp[x], F2^n[y]", "why_tests_cant": "unbounded dimension and degree; the row operations are only invertible over the fraction field", "anchors": ["spffl/containers/tmatrix.h: ed_row_echelon_form, ed_inverse"]}
{"id": "C84", "title": "Bits and matrices of bits", "statement": "bit_t is the field with two elements: constructor and assignment take integers modulo 2, the operators and exp are those of the field, division by zero throws; tmatrix<bit_t> computes products, rank, row echelon form, kernel, determinant and inverse over it.", "quantifier": "all bits, integers, exponents and matrices", "why_tests_cant": "unbounded dimension, exponents and integers; the class stores a byte, not a bit", "anchors": ["spffl/bits/bit_t.h: bit_t", "spffl/containers/tmatrix.h: tmatrix"]}
{"id": "C85", "title": "Minimal polynomials by linear algebra over Fp and F2^n", "statement": "The functions computing minimal and characteristic polynomials from the kernel of the matrix of powers return the minimal polynomial and the characteristic polynomial of multiplication by the element over the coefficient field; the Frobenius length is the degree of the minimal polynomial.", "quantifier": "all irreducible moduli, all elements", "why_tests_cant": "unbounded degree; correctness depends on the kernel being one-dimensional and on its normalization", "anchors": ["spffl/linalg/min_char_polys.cpp: fp_polymod_minimal_polynomial, fp_polymod_characteristic_polynomial, f2npm_min_poly, f2npm_char_poly, f2npm_froblen, fp_polymod_frobenius_length"]}
{"id": "C86", "title": "Conversion between presentations of a field", "statement": "f2_polymod_convert_prep finds an element of the second field with the same minimal polynomial as the generator of the first, and reports failure exactly when the first field does not embed into the second; converting scalars, polynomials and matrices with that pair of generators applies one field homomorphism throughout, which is an isomorphism for fields of equal size.", "quantifier": "all pairs of irreducible moduli, all generators, all elements, polynomials and matrices", "why_tests_cant": "pairs of fields of unbounded size; additivity is not visible from the definition by logarithms", "anchors": ["spffl/linalg/f2_polymod_convert.cpp", "spffl/polynomials/f2n_poly_t.cpp: change_modulus"]}
{"id": "C87", "title": "Rational functions over Fp and F2^n", "statement": "Arithmetic and powers of ratios of polynomials over Fp and F2^n are those of the fraction field; results are in a normal form, so that equality of objects is equality of fractions; division by zero is refused.", "quantifier": "all fractions, all exponents, primes up to 46341, all fields F2^n", "why_tests_cant": "unbounded degree; the normal form depends on the remainder sequence", "anchors": ["spffl/rationals/fp_polyrat_t.cpp", "spffl/rationals/f2n_polyrat_t.cpp"]}
{"id": "C88", "title": "Affine and projective space", "statement": "The matrix returned for affine space has every vector of the given length as a row exactly once; the matrix for projective space has non-zero rows, and every non-zero vector is a multiple of exactly one of them.", "quantifier": "all moduli and dimensions", "why_tests_cant": "unbounded dimension and field size", "anchors": ["spffl/list/list_elements.cpp: f2_polymod_An_list, f2_polymod_Pn_list, fp_polymod_An_list, fp_polymod_Pn_list"]}
{"id": "C89", "title": "Reduction of rational polynomials to finite fields", "statement": "A rational polynomial is reduced coefficient by coefficient to the polynomial over F2, Fp, F2^n or Fp^n, in canonical form; denominators divisible by the characteristic are refused.", "quantifier": "all rational polynomials, all primes up to 46341", "why_tests_cant": "unbounded degree; canonical form depends on how coefficients are entered", "anchors": ["spffl/q_cyclotomic/qff.cpp"]}
{"id": "C90", "title": "Command-line calculators", "statement": "An argument list is an expression of the grammar in at most one way; the evaluators for scalars, vectors and matrices print exactly the value of that expression and refuse every other list; for residues modulo a prime and rationals this is the value in the field, and an expression without value is refused.", "quantifier": "all argument lists, all element types (parsing); all primes up to 46341, all rationals (values)", "why_tests_cant": "unbounded expressions; precedence and associativity are spread over mutually recursive functions and a two-token state", "anchors": ["spffl/cli_parser/cmd_line_ops.h", "spffl/cli_parser/cmd_line_vector_ops.h", "spffl/cli_parser/cmd_line_matrix_ops.h", "cli/spiff/fp_handlers.cpp: fp_op", "cli/spiff/q_handlers.cpp: q_op", "cli/spiff/z_handlers.cpp: z_op"]}
{"id": "C91", "title": "Numbers as text", "statement": "Integers, residues and rationals are read from exactly the texts that denote them, as the value denoted; what is printed is read back as the same object; anything else is refused.", "quantifier": "all texts, all values", "why_tests_cant": "unbounded texts; depends on the stream state left by each extraction", "anchors": ["spffl/intmath/intmod_t.cpp: operator<<, operator>>, from_string", "spffl/intmath/intrat_t.cpp: operator<<, operator>>"]}
{"id": "C92", "title": "Random irreducible polynomials", "statement": "f2_poly_random_irreducible, fp_poly_random_irr and f2n_poly_random_irr return the first irreducible polynomial among those drawn from the bit source (made monic), so whatever they return is monic, irreducible and of exactly the degree asked for; every monic irreducible polynomial of that degree except x can be returned; degrees below 1 are refused.", "quantifier": "all bit sources, positions, degrees, primes and field moduli; any number of rounds", "why_tests_cant": "the result depends on the random source; a test sees a handful of draws and a wrong acceptance test or a biased or skipped draw still returns plausible polynomials", "anchors": ["spffl/factorization/f2_poly_factor.cpp:469-486", "spffl/factorization/fp_poly_factor.cpp:329-350", "spffl/factorization/f2n_poly_factor.cpp:382-404"]}
{"id": "C93", "title": "Polynomials as text", "statement": "from_string and the stream readers of the polynomial and residue types read exactly the texts that denote a polynomial, highest coefficient first, as that polynomial in canonical form, and refuse every other text; what is printed is read back as the same polynomial or residue, from strings and from streams, whatever follows.", "quantifier": "all texts and all polynomials over Z, Fp, F2^n, Fp^n and all residues modulo polynomials over F2, Fp, F2^n, Fp^n", "why_tests_cant": "unbounded texts and degrees; separators differ with the characteristic, and readers leave stream states and partly filled objects behind", "anchors": ["spffl/polynomials/fp_poly_t.cpp: operator<<, operator>>, from_string", "spffl/polynomials/f2n_poly_t.cpp: operator<<, operator>>, from_string, promote_and_add", "spffl/polynomials/fpn_poly_t.cpp: operator<<, operator>>, from_string", "spffl/polynomials/q_poly_t.cpp: operator<<, operator>>, from_string", "spffl/polynomials/fp_polymod_t.cpp: operator<<, operator>>, from_string", "spffl/polynomials/f2_polymod_t.cpp: operator<<, operator>>, from_string", "spffl/polynomials/f2n_polymod_t.cpp: operator<<, operator>>, from_string", "spffl/polynomials/fpn_polymod_t.cpp: operator<<, operator>>, from_string"]}
{"id": "C94", "title": "Vectors and matrices as text", "statement": "A vector is read from its elements with blanks between them and a matrix from its rows, one a line, or from the bracketed forms, for every element type, as exactly those elements; what is printed is read back as the same vector or matrix, with the rest of the stream left; rows of different lengths, rows with something unreadable and texts without rows are refused.", "quantifier": "all texts, vectors, matrices and sizes, all element types", "why_tests_cant": "unbounded texts and sizes; the reader goes through element readers, string streams, a line buffer and a pointer into it", "anchors": ["spffl/containers/tvector.h: operator<<, operator>>, bracket_in", "spffl/containers/tmatrix.h: operator<<, operator>>, bracket_in, check_ragged"]}
{"id": "C95", "title": "Diagonalizability over F2^n", "statement": "f2_polymod_matrix_is_diagonalizable answers whether the matrix is diagonalizable over some extension of its field; the modulus it hands back defines the smallest extension in which the characteristic polynomial splits (the field itself if it already does), and the eigenvalues are the roots there, each once, in increasing order; matrices that are not square are refused.", "quantifier": "all square matrices of every size over F2[x]/(m) whose splitting field has degree at most 30 over F2", "why_tests_cant": "unbounded dimension and matrices; the answer goes through two factorizations, an extension field, a generator and a field embedding", "anchors": ["spffl/linalg/f2_polymod_linear_algebra.cpp: f2_polymod_matrix_is_diagonalizable"]}
{"id": "C96", "title": "Calculators for polynomials and residues", "statement": "The calculators for polynomials over F2, Fp, F2^n and Fp^n, and for residues of such polynomials, print, for every expression of the grammar, a text of its value in the ring of polynomials or the quotient ring: division and remainder are those of polynomials, or by the units of the quotient ring; comparisons print 1 or 0; and they throw where the expression has no value.", "quantifier": "all expressions and argument lists, all primes up to 46341, all irreducible moduli and outer moduli", "why_tests_cant": "unbounded expressions, polynomials and moduli; every value goes through a reader, the evaluator's stacks, the operators and a printer", "anchors": ["spffl/cli_parser/cmd_line_ops.h: cmd_line_parse, emit, clo_exp", "cli/spiff/*_poly_handlers.cpp, cli/spiff/*_polymod_handlers.cpp: *_op_main", "spffl/polynomials/f2_poly_t.cpp: operator*", "spffl/polynomials/fp_poly_t.cpp: operator-()"]}
{"id": "C97", "title": "Bits, bit vectors and bit matrices as text", "statement": "A bit is read as the parity of any 32-bit integer text and nothing else is accepted; a bit vector is read from a sequence of such integers up to the end of the text, and a bit matrix from lines of such integers of one length, comments cut off, up to an empty line or the end; every other text is reported as a failure, nothing is written or read out of bounds whatever the text and whatever the memory held, and what is printed is read back as the same value.", "quantifier": "all texts, bit vectors and bit matrices, all previous contents of the object and of the allocated memory", "why_tests_cant": "unbounded texts; growth of the word and row arrays while reading is invisible in small tests; bits beyond the end must be zero whatever the heap held", "anchors": ["spffl/bits/bit_t.cpp:13-56", "spffl/bits/bit_vector_t.cpp:138-227", "spffl/bits/bit_matrix_t.cpp:189-290"]}
{"id": "C98", "title": "Calculators for matrices and vectors", "statement": "The calculators for matrices and vectors over F2, Fp, F2^n, Fp^n and the rationals print, for every expression of the grammar, a text of a value that the expression has over the field (for matrices: sums, products, powers, transpose, inverse, determinant, rank, echelon forms, kernel bases and comparisons; for vectors: entrywise operations), and they throw where it has none: dimensions that do not fit, singular matrices, zero to a power that is not positive, literals that are no matrix, files that are missing.", "quantifier": "all expressions, all matrices of every size, all vectors of one length, all primes up to 46341, all irreducible moduli, all contents of files", "why_tests_cant": "unbounded expressions and dimensions; every value goes through a reader, the stacks of the evaluator, elimination and a printer", "anchors": ["spffl/cli_parser/cmd_line_matrix_ops.h: cmd_line_mat_parse, emit, from_string", "spffl/cli_parser/cmd_line_vector_ops.h: cmd_line_vec_parse, emit", "spffl/containers/tmatrix.h: check_inverse, check_kernel_basis, load_from_file", "spffl/containers/tvector.h: exp", "cli/spiff/f2_handlers.cpp, fp_handlers.cpp, q_handlers.cpp, f2_polymod_handlers.cpp, fp_polymod_handlers.cpp: *_mat_op_main, *_vec_op_main"]}
{"id": "C99", "title": "Quotients of polynomials as text, and their calculators", "statement": "A quotient of polynomials is read from a polynomial or from two with a slash between them, in lowest terms; a zero denominator throws; what is printed is read back as the same quotient; other texts are refused. The calculators for such quotients and for matrices of them print, for every expression, a text of its value in the field of fractions, and throw where it has none.", "quantifier": "all texts and quotients over F2, Fp (primes up to 46341) and F2^n; all expressions; matrices of every size", "why_tests_cant": "unbounded texts, degrees and expressions; values pass through readers, gcds and printers", "anchors": ["spffl/rationals/f2_polyrat_t.cpp, fp_polyrat_t.cpp, f2n_polyrat_t.cpp: operator<<, operator>>, from_string", "cli/spiff/*_polyrat_handlers.cpp: *_op_main, *_mat_op_main"]}
{"id": "C100", "title": "The integer commands, from arguments to printed text", "statement": "The commands on integers print, for every list of arguments that are integers, exactly the lines the user is told to expect: greatest common divisors with their cofactors, least common multiples, totients, primality, the n-th primes of a range, arithmetic progressions, prime factorizations, divisors and maximal proper divisors. An argument that is not an integer ends the program with status 1, and only success gives status 0.", "quantifier": "all argument lists, all ints", "why_tests_cant": "unbounded argument lists and all ints; printed text depends on number theory, on scanning and on printing", "anchors": ["cli/spiff/z_handlers.cpp: z_gcd_main, z_lcm_main, z_totient_main, z_test_prime_main, nth_prime_main, z_list_main, z_factor_main, z_divisors_main", "cli/spiff/spiff_main.cpp: try_main, main", "spffl/containers/tfacinfo.h: operator<<"]}
{"id": "C101", "title": "The commands for polynomials over F2, from arguments to printed text", "statement": "The commands on polynomials over F2 print, for every list of arguments that are hexadecimal texts, exactly what the user is told to expect: degrees, greatest common divisors with cofactors, least common multiples, totients, irreducibility and primitivity, the least such polynomials, periods, factorizations, all or the maximal proper divisors, values, companion matrices, reductions of integer polynomials, and lists of all polynomials of a degree. An argument that cannot be read ends the program with status 1 after the lines of the arguments before it.", "quantifier": "all argument lists, all polynomials", "why_tests_cant": "unbounded argument lists and degrees; printed text depends on algebra, on scanning and on printing", "anchors": ["cli/spiff/f2_poly_handlers.cpp", "spffl/polynomials/f2_poly_t.cpp: operator<<, from_string", "spffl/containers/tfacinfo.h: operator<<, get_all_divisors, get_maximal_proper_divisors"]}
{"id": "C102", "title": "The commands for polynomials over Fp, from arguments to printed text", "statement": "The commands on polynomials over Fp print, for every list of arguments that are texts of polynomials, the degrees, greatest common divisors with cofactors, least common multiples, totients, irreducibility, the least irreducible polynomials, factorizations, all or the maximal proper divisors, values, companion matrices, reductions of integer polynomials and lists of all polynomials of a degree, in the notation in which polynomials are read. The companion matrix has the polynomial as its characteristic polynomial. An argument that cannot be read ends the program with status 1 after the lines of the arguments before it.", "quantifier": "all argument lists, all polynomials, all primes p", "why_tests_cant": "unbounded argument lists, degrees and fields; printed text depends on algebra, on scanning and on printing", "anchors": ["cli/spiff/fp_poly_handlers.cpp", "spffl/polynomials/fp_poly_t.cpp: operator<<, from_string", "spffl/containers/tfacinfo.h: operator<<, get_all_divisors, get_maximal_proper_divisors"]}
{"id": "C103", "title": "The commands for polynomials over F2^n, from arguments to printed text", "statement": "The commands on polynomials over F2^n print, for every list of arguments that are texts of polynomials, the degrees, greatest common divisors with cofactors, least common multiples, totients, irreducibility, the least irreducible polynomials, factorizations, all or the maximal proper divisors, values, companion matrices, reductions of integer polynomials and lists of all polynomials of a degree, in the notation in which polynomials are read. The companion matrix has the polynomial as its characteristic polynomial. An argument that cannot be read ends the program with status 1 after the lines of the arguments before it.", "quantifier": "all argument lists, all polynomials, all irreducible moduli m", "why_tests_cant": "unbounded argument lists, degrees and fields; printed text depends on algebra, on scanning and on printing", "anchors": ["cli/spiff/f2n_poly_handlers.cpp", "spffl/polynomials/f2n_poly_t.cpp: operator<<, from_string", "spffl/containers/tfacinfo.h: operator<<, get_all_divisors, get_maximal_proper_divisors"]}
{"id": "C104", "title": "The commands for residues modulo n, from arguments to printed text", "statement": "The commands on residues modulo n print: the residues, units, non-units, multiples of a residue or residues relatively prime to one, each once and in ascending order; the tables of sums, products, differences and quotients; the tables of logarithms and powers for a given base or the least generator of the units; the order of each argument; the greatest order of a unit; the least generator for each modulus; the logarithm of each argument; and the orbit of a residue under multiplication. What cannot be done ends the program with status 1.", "quantifier": "all moduli n, all argument lists, all bases, starting points and multipliers", "why_tests_cant": "unbounded argument lists and moduli; printed text depends on group theory, on scanning and on printing", "anchors": ["cli/spiff/fp_handlers.cpp", "cli/spiff/tbl_types.h", "spffl/list/list_elements.cpp", "spffl/units/fp_units.cpp"]}
{"id": "C105", "title": "The commands for residues modulo a polynomial over F2, from arguments to printed text", "statement": "The commands on residues modulo a polynomial over F2 print: the residues, units, non-units, multiples of a residue or residues relatively prime to one, each once and in ascending order; the tables of sums, differences, products and quotients, of logarithms and of powers; the order and the logarithm of each argument; the least generator for each modulus; the minimal and the characteristic polynomial of each argument; and the image of each argument under an embedding into another field. What cannot be done ends the program with status 1.", "quantifier": "all moduli, all argument lists, all bases", "why_tests_cant": "unbounded argument lists and moduli; printed text depends on field theory, on scanning and on printing", "anchors": ["cli/spiff/f2_polymod_handlers.cpp", "cli/spiff/tbl_types.h", "spffl/list/list_elements.cpp", "spffl/units/f2_polymod_units.cpp", "spffl/linalg/f2_linear_algebra.cpp", "spffl/linalg/f2_polymod_convert.cpp"]}
{"id": "C106", "title": "The commands for residues modulo polynomials over Fp and F2^n, from arguments to printed text", "statement": "The commands on residues modulo a polynomial over Fp or F2^n print: the residues, units or non-units, each once and in ascending order; the tables of sums, differences, products and quotients, and over F2^n of logarithms and of powers; the order of each residue; over F2^n the least generator for each modulus and the logarithms of residues; the minimal and the characteristic polynomial of each residue. What cannot be done ends the program with status 1.", "quantifier": "all p and n, all moduli, all argument lists, all bases", "why_tests_cant": "unbounded argument lists and moduli; printed text depends on field theory, on scanning and on printing", "anchors": ["cli/spiff/fp_polymod_handlers.cpp", "cli/spiff/f2n_polymod_handlers.cpp", "cli/spiff/spiff_main.cpp", "spffl/list/list_elements.cpp", "spffl/units/f2n_polymod_units.cpp"]}
{"id": "C107", "title": "The matrix commands, from arguments, files and standard input to printed text", "statement": "The order commands print the order of the square matrix on standard input, or 0 if it is singular; the characteristic polynomial commands print the characteristic polynomial of the matrix in a file or on standard input; the command for linear systems prints the solution if there is exactly one and says otherwise that there is none. What cannot be read ends the program with status 1.", "quantifier": "all matrices of all sizes over F2, Fp (p prime up to 46341), F2^n and Fp^n (irreducible moduli), all texts of them, all files and file names, all contents of standard input", "why_tests_cant": "Commands are not covered by the unit tests; the texts, sizes and fields are unbounded, and the failures need input that ends without a newline or an order above 2^31.", "anchors": ["cli/spiff/f2_handlers.cpp:53-113", "cli/spiff/fp_handlers.cpp:425-500", "cli/spiff/f2_polymod_handlers.cpp:460-521", "cli/spiff/f2_polymod_handlers.cpp:553-594", "cli/spiff/fp_polymod_handlers.cpp:249-293", "spffl/containers/tmatrix.h:116-146", "spffl/containers/tvector.h:171-200"]}
{"id": "C108", "title": "The commands for polynomials over Fp^n and for cyclotomic polynomials, from arguments to printed text", "statement": "fpn_p_gcd prints the greatest common divisor of two polynomials over Fp[x]/(m), with -e as a combination of them; fpn_p_qp prints integer polynomials modulo p; q_cyclotomic prints the coefficients of the cyclotomic polynomial of each argument, and the answers do not depend on what was asked before. What cannot be read ends the program with status 1.", "quantifier": "all primes up to 46341, all irreducible moduli, all polynomials of any degree and all texts of them, all lists of arguments", "why_tests_cant": "Commands are not covered by the unit tests; degrees, moduli and lists of arguments are unbounded, and the undefined behaviour depends on the degrees of coefficients that appear only while dividing.", "anchors": ["cli/spiff/fpn_poly_handlers.cpp:63-141", "cli/spiff/q_handlers.cpp:40-52", "spffl/q_cyclotomic/cyclo_poly.cpp:22-77", "spffl/polynomials/fpn_poly_t.cpp:388-465"]}
{"id": "C109", "title": "The calculators, from arguments to printed text and exit status", "statement": "Each *_op command reads the modulus, evaluates the expression that the rest of its arguments form and prints its value and nothing else, and throws when there is no value. What cannot be read before the expression ends the program with status 1. A command that prints something and returns was given one expression, all of whose arguments were used.", "quantifier": "all expressions of any length over each of the types, all moduli in the stated ranges, all lists of arguments after the expression that begin with a closing bracket", "why_tests_cant": "Commands are not covered by the unit tests; the claim is about all expressions, all texts of literals and everything that can follow an expression.", "anchors": ["spffl/cli_parser/cmd_line_ops.h:642-668", "cli/spiff/z_handlers.cpp:17-20", "cli/spiff/q_handlers.cpp:8-25", "cli/spiff/fp_handlers.cpp:67-79,398-427", "cli/spiff/f2_handlers.cpp:11-51", "cli/spiff/f2_poly_handlers.cpp:48-53", "cli/spiff/f2_polymod_handlers.cpp:67-81,420-457", "cli/spiff/fp_polymod_handlers.cpp:51-70,204-241", "cli/spiff/fpn_polymod_handlers.cpp:14-39"]}
{"id": "C110", "title": "The program: commands by name, braces, exit status", "statement": "Each name of the table runs its own command with the arguments after it; what is printed is what the command prints, and the status is 1 exactly if the command leaves by exit(1) or there is no argument. A command in braces, at any depth, is replaced by the tokens that the program prints for it. -l prints the headings and names of the table.", "quantifier": "all lists of arguments, all environments (files, standard input, uninitialised memory, commands that are not modelled), braces to any depth, whatever the shell does with other command lines", "why_tests_cant": "The dispatch and the braces are not covered by unit tests; the claim is about all command lines and all nestings.", "anchors": ["cli/spiff/spiff_main.cpp:31-318", "spffl/cli_parser/cmd_interp.cpp:16-196"]}
{"id": "C111", "title": "The random commands print what the generator draws", "statement": "Each random command prints, for every sequence of words of the generator, one line per element (or one row per line), each element made from fresh words that follow those of the element before: polynomials have exactly the degree asked for, residues are those of polynomials of the degree of the modulus, quotients are in lowest terms. A modulus, degree or size that makes no sense is an exception before anything is printed; a count that is not positive prints nothing; anything that is not a number or a polynomial is status 1 with nothing printed.", "quantifier": "all sources of random words, all moduli, degrees, counts and sizes (fp_pm: primes up to 46341; f2n: irreducible modulus)", "why_tests_cant": "The commands are random, so tests cannot fix their output; the claim is about all sequences of words.", "anchors": ["cli/spiff/f2_handlers.cpp:22-140", "cli/spiff/f2_poly_handlers.cpp:408-428", "cli/spiff/f2_polymod_handlers.cpp:392-641", "cli/spiff/f2_polyrat_handlers.cpp:21-97", "cli/spiff/f2n_poly_handlers.cpp:409-433", "cli/spiff/f2n_polymod_handlers.cpp:366-480", "cli/spiff/fp_handlers.cpp:371-528", "cli/spiff/fp_poly_handlers.cpp:438-461", "cli/spiff/fp_polymod_handlers.cpp:300-476"]}
{"id": "C112", "title": "What the calculators for matrices over integers and polynomials print", "statement": "The calculators for matrices over the integers and over polynomials (over F2, Fp, F2^n, Fp^n) print the value of every expression with +, -, *, ^ to a positive power, transpose, == and !=. A determinant that is a unit is printed right or refused; every other determinant is printed as 0 or refused (violated: det [[5]] is 0), and it is always refused from two rows on if the first non-zero entry of the first column is no unit. Where all entries of polynomial matrices are constants, inverses, ranks, determinants and all powers are right as well. The calculators for matrices and vectors over the quotient rings F2^n[x]/m and Fp^n[x]/m print the value of every expression.", "quantifier": "all expressions of the grammar, all matrices of all sizes; moduli of the coefficient fields irreducible, p up to 46341", "why_tests_cant": "The elimination divides by pivots with the truncating division of the type; which results survive that is a claim about all matrices over all these domains.", "anchors": ["cli/spiff/z_handlers.cpp:277-280", "cli/spiff/f2_poly_handlers.cpp:451-456", "cli/spiff/fp_poly_handlers.cpp:63-80", "cli/spiff/f2n_poly_handlers.cpp:486-508", "cli/spiff/fpn_poly_handlers.cpp:36-62", "cli/spiff/f2n_polymod_handlers.cpp:393-444", "cli/spiff/fpn_polymod_handlers.cpp:40-68", "spffl/containers/tmatrix.h:893-1010"]}
{"id": "C113", "title": "What q_p_op and f2_pm_mat_diagonalizable print", "statement": "q_p_op prints the value of an expression in polynomials over the rationals, coefficients in lowest terms and leading one first, quotients and remainders as for polynomials over a field; it throws where a divisor is zero. Sums, differences and products of integer polynomials are printed whenever the sums of the absolute values of the coefficients stay in the range of int. f2_pm_mat_diagonalizable prints the matrix, its characteristic polynomial, the factors with their degrees, the least common multiple of these, the degree and modulus of a splitting field, for each eigenvalue its multiplicity, nullity and the matrix minus it, and whether the matrix is diagonalizable, which is whether it has a basis of eigenvectors over some extension.", "quantifier": "all expressions of the grammar; all matrices over F2[x]/m with m irreducible whose characteristic polynomial splits in degree at most 30; every sort that meets the contract of qsort", "why_tests_cant": "The report depends on the factorization, the splitting field and an embedding; a test sees one matrix.", "anchors": ["cli/spiff/q_handlers.cpp:32-37", "cli/spiff/f2_polymod_handlers.cpp:526-563", "spffl/linalg/f2_polymod_linear_algebra.cpp:83-255", "spffl/polynomials/q_poly_t.cpp:656-778"]}
{"id": "C114", "title": "Factor lists keep to their storage", "statement": "Any program that creates, copies, fills, raises to powers, merges (also a list with itself) and destroys factor lists stays inside the arrays it has allocated and never uses one that has been deleted; afterwards each list has exactly the factors inserted, ascending, each with the sum of its counts, whatever was done to its copies; nothing that is no longer needed stays allocated; assigning a list keeps its contents.", "quantifier": "all programs with any number of factor lists over any element type whose comparisons are those of a linear order", "why_tests_cant": "Arrays grow at every twentieth factor and right after copying; a test sees few histories.", "anchors": ["spffl/containers/tfacinfo.h:45-90", "spffl/containers/tfacinfo.h:143-256", "spffl/containers/tfacinfo.h:306-331"]}
{"id": "C115", "title": "Polynomials from the digits of an int", "statement": "The polynomial made from an int and a modulus of at least 2 has the base-m digits of the int as its coefficients, the lowest digit as constant term, and degree the number of digits less one; evaluating it at m gives the int back, different ints give different polynomials, and -b gives the negative of what b gives.", "quantifier": "all ints b (the smallest included) and all int moduli from 2 on; the other moduli separately", "why_tests_cant": "The number of digits depends on powers of the modulus up to 2^31, and negative ints exercise the signs of C++ division.", "anchors": ["spffl/polynomials/fp_poly_t.cpp:77-98", "spffl/polynomials/f2n_poly_t.cpp:76", "spffl/polynomials/fpn_poly_t.cpp:54"]}
{"id": "C116", "title": "Polynomial objects keep to their storage", "statement": "Any program that creates, copies, assigns, adds, subtracts, multiplies, scales, divides, changes and destroys polynomial objects, also with the same object in several places, stays inside the arrays it has allocated and never uses one that has been deleted; no two objects share an array; each object holds the polynomial it should; nothing that is no longer needed stays allocated.", "quantifier": "all programs with any number of objects; polynomials over the integers modulo m, over F2[x]/m, Fp[x]/M and the rationals", "why_tests_cant": "Quotient and remainder are returned through references that may be the operands; a test sees few such histories, and none sees an array that is never deleted.", "anchors": ["spffl/polynomials/fp_poly_t.cpp:16-75", "spffl/polynomials/fp_poly_t.cpp:100-330", "spffl/polynomials/fp_poly_t.cpp:560-640", "spffl/polynomials/cyclo_poly.cpp:55-70"]}
{"id": "C117", "title": "Sums and lists of points of elliptic curves modulo p", "statement": "For two points of y^2 = x^3 + a x^2 + b x + c modulo an odd prime, the point at infinity included, fpelladd prints their sum in the group of the curve; fpellpts prints every point of the curve exactly once and nothing else.", "quantifier": "all odd primes up to 46341, all coefficients, all pairs of points", "why_tests_cant": "The group law has a case for each coincidence of the points; a test tries a few curves, and curves where a term vanishes hide a wrong sign.", "anchors": ["pre-cmake/apps/ell/fpelladd.cpp:13-118", "pre-cmake/apps/ell/fpellpts.cpp:11-66"]}
{"id": "C118", "title": "Sums and lists of points of elliptic curves over F2[x]/m", "statement": "For two points of y^2 + a1 x y + a3 y = x^3 + a2 x^2 + a4 x + a6 over the field F2[x]/m, the point at infinity included, ftelladd prints their sum in the group of the curve; ftellpts prints every point of the curve exactly once and nothing else.", "quantifier": "all irreducible m, all coefficients, all pairs of points (the list: degree of m up to 30)", "why_tests_cant": "Associativity and the special cases of the group law cannot be sampled; the points of order two are few.", "anchors": ["pre-cmake/apps/ell/ftelladd.cpp:13-123", "pre-cmake/apps/ell/ftellpts.cpp:12-126"]}
{"id": "C119", "title": "Arithmetic of polynomials in several variables", "statement": "Sums, differences, negatives and products of polynomials in several variables are those of the polynomial ring, every monomial occurs at most once, and no term has the coefficient 0; a polynomial is made of the terms given to its constructor.", "quantifier": "all numbers of variables, all polynomials with exponents that fit an int, coefficients modulo m, in F2[x]/m, in Fp[x]/M and rational", "why_tests_cant": "Terms are collected by searching unordered lists; which terms coincide or cancel depends on all pairs of monomials and on the coefficient ring.", "anchors": ["pre-cmake/classes/tmvpoly.h:145-154", "pre-cmake/classes/tmvpoly.h:435-482", "pre-cmake/classes/tmvpoly.h:525-552", "pre-cmake/classes/tmvpoly.h:598-691", "pre-cmake/classes/tmvpoly.h:717-729"]}
{"id": "C120", "title": "Values, derivatives and degrees of polynomials in several variables", "statement": "eval gives the value of the polynomial at the point, deriv the partial derivative, find_degree the total degree; is_homogeneous tells whether all monomials have the same degree, homogenize gives the homogeneous polynomial of the same degree in one more variable that is the old one where that variable is 1.", "quantifier": "all polynomials in any number of variables, all points, all variables", "why_tests_cant": "The derivative passes through terms with exponent -1 that must all disappear; degrees go wrong only for polynomials with hidden zero terms.", "anchors": ["pre-cmake/classes/tmvpoly.h:220-242", "pre-cmake/classes/tmvpoly.h:322-350", "pre-cmake/classes/tmvpoly.h:354-358", "pre-cmake/classes/tmvpoly.h:741-789", "pre-cmake/classes/tmvpoly.h:803-834"]}
{"id": "C121", "title": "The number of irreducible polynomials over F2", "statement": "calc_moebius is the Moebius function; num_irreds_deg_is(n) is the number of irreducible polynomials of degree n over F2; num_irreds_deg_divides(n) is the number whose degrees divide n, which is the number of minimal polynomials of the elements of a field with 2^n elements, the rows of the chart.", "quantifier": "all ints but 0 and INT_MIN; all degrees from 1 to 30; all fields with 2^n elements", "why_tests_cant": "The sum has positive and negative terms with powers of two up to 2^30; that it counts polynomials is a theorem about finite fields.", "anchors": ["pre-cmake/utils/moebius.cpp:11-23", "pre-cmake/tools/f2pmchart.cpp:167-187"]}
{"id": "C122", "title": "The list of all irreducible polynomials of a degree over F2", "statement": "For an argument :n the chart program makes the list of all irreducible polynomials of degree n, each once, in ascending order; the array of num_irreds_deg_is(n) elements is filled completely and never overrun.", "quantifier": "all degrees from 1 to 29", "why_tests_cant": "The array is sized by one computation and filled by another; they must agree for every degree.", "anchors": ["pre-cmake/tools/f2pmchart.cpp:144-147", "pre-cmake/tools/f2pmchart.cpp:190-212"]}
{"id": "C123", "title": "In-place vector operators with an argument from the vector; find_row; comparison with a scalar", "statement": "v *= v[k] and v /= v[k] scale the whole vector by the old v[k]; v *= w and v *= v are componentwise products; find_row answers with the first equal row exactly if there is one; A == c holds exactly if all entries are c.", "quantifier": "all vectors and matrices over a type with ring operations, all positions", "why_tests_cant": "Tests pass separate scalars and one or two sample matrices; aliasing through the reference and first-match order are claims about all positions.", "anchors": ["spffl/containers/tvector.h:366-398", "spffl/containers/tmatrix.h:372-379", "spffl/containers/tmatrix.h:756-764"]}
{"id": "C124", "title": "The self-checks of matrices, and equality of bit matrices", "statement": "check_inverse accepts exactly the inverse and throws for everything else; check_kernel_basis accepts exactly the matrices whose rows are in the kernel; == of bit matrices holds exactly for equal matrices; differences and negatives of bit matrices are those of matrices over F2.", "quantifier": "all matrices of all sizes over a field, all candidates", "why_tests_cant": "A self-check is only exercised on right results by the code that calls it; whether it rejects every wrong candidate needs a claim over all of them.", "anchors": ["spffl/bits/bit_matrix_t.cpp:160-188", "spffl/bits/bit_matrix_t.cpp:314-333", "spffl/bits/bit_matrix_t.cpp:836-856", "spffl/bits/bit_matrix_t.cpp:927-935", "spffl/containers/tmatrix.h:1173-1193", "spffl/containers/tmatrix.h:1403-1411"]}
{"id": "C125", "title": "The example program for the Chinese remainder theorem", "statement": "For coprime m and n the program prints for every x from 0 to mn-1 the residues of x modulo m and n, the number found again from them, which is x, and the difference 0; the pairs are all pairs of residues, each once. Moduli with a common factor are refused.", "quantifier": "all pairs of moduli", "why_tests_cant": "The table shows its own check for one pair of moduli per run; that the formula is right, and where it overflows, is a claim about all pairs.", "anchors": ["pre-cmake/examples/crt2.cpp:21-46", "spffl/intmath/intmod_t.cpp:268-319"]}
{"id": "C126", "title": "A polynomial evaluated at a matrix", "statement": "poly_of_matrix returns f(A) for a square matrix A and refuses other matrices; the program prints f exactly if f(A) = 0, that is if f is a multiple of the minimal polynomial of A; in particular it prints the characteristic polynomial.", "quantifier": "all polynomials and all square matrices over a finite field of characteristic 2 (the value: over any coefficient type)", "why_tests_cant": "The loop carries a power and a sum; that both are right for every degree and every matrix is an invariant, and the last claim is the Cayley-Hamilton theorem.", "anchors": ["pre-cmake/tools/single.cpp:24-42", "pre-cmake/tools/single.cpp:66-69"]}
{"id": "C127", "title": "The Frobenius orbit of a point", "statement": "F2_frob squares every coordinate; F2_frobit(v, n) returns v, v^2, v^4, ... up to the first return to v, at most n of them. Over a field with 2^n elements these are the points of the Frobenius orbit of v, each once; their number divides n, and it divides k exactly when all coordinates of v lie in the field with 2^k elements.", "quantifier": "all points with at least one coordinate over F2[x]/m, all m and n; the orbit for irreducible m of degree n", "why_tests_cant": "That the walk closes within n steps for every point and visits no point twice is a fact about the Frobenius map, for all fields and points.", "anchors": ["pre-cmake/apps/agff/agff.cpp:1112-1141"]}
{"id": "C128", "title": "Numbers of affine and projective zeros", "statement": "f2apolist counts the zeros of a polynomial f in n variables with coefficients in F2 over F2[x]/m: the number of affine zeros is the number of vectors x with f(x) = 0, and the number of projective zeros of the homogenized polynomial, times q - 1, is the number of vectors other than 0 at which it is zero.", "quantifier": "all polynomials with coefficients in F2, all reductors m within the sizes of C88 (projective: irreducible)", "why_tests_cant": "The counts run over all points of a space; that each point is met exactly once, for every field and every polynomial, is no matter of samples.", "anchors": ["pre-cmake/apps/agff/agff.cpp:301-351", "pre-cmake/apps/agff/agff.cpp:1073-1092"]}
