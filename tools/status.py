STATUS.update({
"C01": ("partial", "Proved for all ints except INT_MIN, result up to sign; the full statement is false: int_gcd(0,-4) = -4 (C01_violated_sign), and INT_MIN with a non-zero partner is undefined (C01_ub_iff)."),
"C02": ("proved", "All a, b other than INT_MIN with b != 0, no overflow of any intermediate; b = 0 proved undefined."),
"C03": ("partial", "Proved whenever the product a*b is representable; violated otherwise (C03_violated: lcm(65536,65536) overflows; C03_zero)."),
"C04": ("partial", "Exact characterisation proved; the full statement is false: 2^16 is representable but the call overflows in an unused squaring (C04_violated)."),
"C05": ("proved", ""),
"C06": ("partial", "Proved for n >= 2; false at n = 1 (C06_violated)."),
"C07": ("proved", "All ints other than INT_MIN, for which negation overflows (C07_int_min)."),
"C08": ("proved", "The whole 6542-entry table is checked by kernel evaluation and lifted to Nat.Prime."),
"C09": ("proved", ""),
"C10": ("proved", ""),
"C66": ("proved", ""),
"C67": ("proved", ""),
"C73": ("proved", "Buffers below 2^28 bytes, beyond which the int accumulator overflows."),
})

STATUS.update({
"C11": ("proved", "Every int except INT_MIN, which is proved undefined."),
"C12": ("partial", "Exact outcome proved for every modulus; the full statement is false for moduli above 46341, where products overflow (C12_mul_violated)."),
"C13": ("partial", "Every history of calls with moduli 2..46341; false above (C13_violated_large), and modulus 1 throws (C13_modulus_one)."),
"C14": ("partial", "Moduli up to 46341 and all exponents except INT_MIN, which is undefined (C14_violated_int_min)."),
"C15": ("proved", ""),
"C16": ("partial", "Non-negative integers; false for every negative integer not divisible by the modulus (C16_violated)."),
"C33": ("proved", "Generic over element types; all building programs whose counts fit an int."),
"C34": ("proved", "Generic over element types; all building programs whose counts fit an int and whose value is representable."),
"C35": ("partial", "Divisor count and maximal proper divisors for all ints; the full list under an explicit no-overflow condition, false without it (C35_violated)."),
})

STATUS.update({
"C18": ("proved", ""),
"C19": ("partial", "Proved when the left factor is canonical (as every operation except multiplication by zero leaves it); false otherwise: (0 * x^100) * 1 reads out of bounds (C19_violated)."),
"C20": ("proved", ""),
"C21": ("proved", ""),
"C22": ("proved", ""),
"C23": ("proved", ""),
"C24": ("proved", ""),
"C25": ("proved", "Polynomials of fewer than 2^31 bits."),
"C26": ("proved", ""),
"C27": ("proved", ""),
"C28": ("proved", ""),
"C29": ("partial", "set_bit and bit_at for all positions; set_coeff only for bit offsets below 31, false at 31 and undefined from 32 on (C29_violated, C29_violated_ub)."),
})

STATUS.update({
"C30": ("proved", ""),
"C31": ("proved", ""),
"C32": ("partial", "Every modulus, residue and exponent except exponent INT_MIN of a non-zero residue, which is undefined (C32_int_min)."),
})

STATUS.update({
"C17": ("partial", "Exact whenever the intermediate integers are representable and none to be simplified is INT_MIN; undefined at INT_MIN (C17_violated_int_min). Whatever is returned is always exact (C17_never_wrong)."),
"C36": ("proved", "fp_poly_t for moduli 2..46341, f2n_poly_t for all moduli, q_poly_t up to coefficient overflow."),
"C37": ("partial", "Constants only; unary minus of every non-constant polynomial writes out of bounds (C37_fp_violated, C37_f2n_violated)."),
"C38": ("proved", "fp_poly_t for moduli 2..46341, f2n_poly_t for all moduli, q_poly_t up to coefficient overflow."),
"C39": ("partial", "ext_gcd throws when the second argument is zero (C39_fp_violated); everything else proved."),
"C40": ("proved", "Derivative for degrees that fit an int."),
})

STATUS.update({
"C36": ("partial", "fp_poly_t for moduli 2..46341, f2n_poly_t for all moduli, q_poly_t up to coefficient overflow; fpn_poly_t except that subtracting a polynomial of larger degree is undefined when a negated coefficient is not constant (C36_fpn_violated)."),
"C40": ("partial", "Everything except the derivative of fpn_poly_t, which is wrong (C40_fpn_deriv_violated); derivative for degrees that fit an int."),
"C41": ("partial", "Ring operations, division, powers for all primes up to 46341 and all moduli; scalar multiplication scales the modulus (C41_violated_scalar), negative int multiples return the object unchanged (C41_violated_negative), unary minus is undefined for non-constant residues (C41_neg_partial). fpn_polymod_t, polynomials modulo a polynomial over Fp[y]/(n), is covered by C41_fpn_*: sums, products, quotients and powers are right or undefined, subtraction is undefined for non-constant coefficients (C41_fpn_violated_sub)."),
})

STATUS.update({
"C42": ("proved", "Any element type refining a commutative ring; intmod_t, f2_polymod_t, fp_polymod_t outright, intrat_t up to overflow."),
"C43": ("proved", "Any element type refining a field."),
"C44": ("proved", "Any element type refining a field; a non-square matrix throws."),
"C45": ("partial", "Every element type with a working unary minus; over fp_polymod_t the unary minus of a non-constant residue is undefined (C45_violated)."),
"C46": ("proved", "Any element type refining a field. paste itself is wrong on non-square matrices (C46_violated_paste), which inverse never passes it."),
"C47": ("partial", "Proved when the output vector is empty or has room; otherwise it writes past the end of it (C47_violated)."),
"C48": ("partial", "All positive powers; negative powers except INT_MIN, which is undefined (C48_violated_int_min); the zeroth power of a singular matrix is refused (C48_violated_zero, C48_zeromat)."),
"C49": ("partial", "tvector: proved exactly when the destination is empty or big enough; every other assignment writes out of bounds (C49_tvector_violated)."),
})

STATUS.update({
"C49": ("partial", "tvector and bit_vector_t: proved exactly when the destination is empty or big enough; every other assignment writes out of bounds (C49_tvector_violated, C49_bit_vector_violated)."),
"C50": ("partial", "Access, arithmetic, dot product, zero test and leading position for every length; equality ignores the last word (C50_eq_computes, C50_violated_eq); fill construction is undefined unless the length is a multiple of 64 (C50_violated_fill)."),
"C51": ("proved", "All shapes. The kernel basis, product and powers construct a zero-filled matrix whose mask expression is undefined read literally (C51_violated_strict); the theorems hold whatever value it yields."),
"C52": ("partial", "Refuted: inverse throws for every square matrix (C52_violated), hence so do non-positive powers (C52_violated_exp)."),
})

STATUS.update({
"C53": ("proved", "Every degree up to INT_MAX; factors irreducible, strictly increasing, multiplicities positive, product f; constants become the unit. As for C51, read literally the kernel basis is undefined when the degree is not a multiple of 64 (C53_violated_strict)."),
"C54": ("proved", "Every polynomial of degree up to INT_MAX, same reading of the mask as C53."),
"C55": ("partial", "All degrees from 2 on; for degree 1 the search returns x + 1 although x is less (C55_violated). Degrees below 1 throw."),
"C58": ("partial", "Whenever the totient is below 2^31 - 1; for irreducible f of degree 31 the value 2^31 - 1 is representable but the computation overflows (C58_violated)."),
})

STATUS.update({
"C56": ("proved", "Primes up to 46341, every degree up to INT_MAX; factors monic irreducible, strictly increasing, multiplicities positive, product times unit is f; constants become the unit."),
"C57": ("partial", "All irreducible moduli up to degree 30; for degree 31 factoring throws and from 32 on it is undefined (C57_violated_31, C57_violated_32)."),
"C76": ("partial", "The tests for every polynomial; the searches for all degrees from 2 on; for degree 1 the search never returns x, the least one (C76_violated)."),
"C77": ("partial", "Every non-zero polynomial; the zero polynomial is reported to have no roots (C77_violated_zero)."),
"C78": ("partial", "Whenever the powers formed on the way are representable; int_power squares once too often, so representable totients overflow (C78_violated_fp, C78_violated_f2n)."),
})

STATUS.update({
"C59": ("partial", "Z/n: every modulus 2..46341. F2[x]/(m): every modulus up to degree 15, and beyond whenever the divisors of the number of units can be listed; for irreducible m of degree 17 the result is undefined for every unit (C59_violated_17). K[y]/(M): while 2^(2 deg m deg M) fits an int. Non-units throw for every modulus."),
"C60": ("partial", "Z/n: every modulus 2..46341, least generator or false. F2[x]/(m), K[y]/(M): irreducible moduli, least generator; for reducible moduli the search throws although a generator exists (C60_violated_reducible)."),
"C61": ("partial", "Z/n: every modulus 2..46341. F2[x]/(m): every modulus up to degree 30; 31 throws, beyond is undefined (C61_violated_31, _32). K[y]/(M): results are correct, but exponents above 2^deg M are not searched (C61_violated_f2n). For every sorting function."),
"C62": ("partial", "Test: every polynomial with fewer than 2^31 - 1 units (all of degree up to 30); undefined for every irreducible polynomial of degree 31 (C62_violated_31). Period: degree up to 15."),
"C79": ("partial", "Degrees 1 to 30, with and without the irreducibility requirement; for degree 31 the search never returns (C79_violated_search). Random search for every sequence of random values."),
})

STATUS.update({
"C63": ("partial", "Every monic polynomial of positive degree over F2, Fp (p up to 46341) and F2^n, also through the code's own characteristic polynomial; constants throw (C63_violated_constant)."),
"C64": ("proved", "Every square matrix, with Cayley-Hamilton, degree and constant term; non-square matrices throw."),
"C80": ("proved", "Every square matrix; primes up to 46341, every irreducible modulus."),
"C81": ("partial", "Every non-zero square matrix over F2[x], Fp[x], F2^n[y]; zero matrices of every size throw (C81_violated_zero)."),
"C82": ("partial", "Every int for F2, every non-negative int for Fp; F2^n for moduli up to degree 31, undefined for every larger degree (C82_violated_32)."),
})

STATUS.update({
"C83": ("partial", "Echelon form: every non-zero matrix. Inverse: exact over F2[x]; over Fp[x] and F2^n[y] a returned inverse is right, but invertible matrices are refused, e.g. [2] over F5[x] (C83_violated_fp)."),
"C84": ("partial", "All operators and matrix functions; exp is wrong for 0 with exponents at most 0 (C84_violated_exp), assignment of an integer does not reduce it (C84_violated_assign)."),
})

STATUS.update({
"C65": ("proved", "Every irreducible modulus and element, by orbit and by linear algebra (degrees below INT_MAX for the latter); for reducible moduli the length loop need not end (C65_reducible_loops)."),
"C85": ("partial", "Every irreducible modulus and element for primes up to 46341 and for F2^n with n up to 30; missing: larger coefficient fields."),
})

STATUS.update({
"C86": ("partial", "Every pair of irreducible moduli with degrees up to 30, every generator; for first moduli of degree 31 or more conversion throws or is undefined (C86_violated_31, C86_violated_32)."),
})

STATUS.update({
"C69": ("proved", "Every line and separator set; the pointer array must have room for the tokens stored."),
"C72": ("partial", "Balance check, matching and refusal: every list. Replacement: outputs without lines of more than 4095 bytes and without brackets; longer tokens are split (C72_violated_long), and brackets in outputs are evaluated again, possibly for ever (C72_violated_forever)."),
"C74": ("proved", "Every program of constructions, copies, pushes, pops and destructions; operator= lacks its return statement and is not among the operations, its body loses the elements on self-assignment (C74_violated_self_assign)."),
})

STATUS.update({
"C75": ("partial", "All fractions; every exponent but INT_MIN (C75_violated_int_min). The comparisons are consistent with each other and with equality but not transitive (C75_violated_order)."),
"C87": ("partial", "All fractions and operators except unary minus, which is undefined for non-constant numerators (C87_violated_neg_ub) and leaves the normal form otherwise, so that equality fails for odd p (C87_violated_neg_eq)."),
})

STATUS.update({
"C70": ("partial", "Z/m: every modulus but 1 (C70_violated_one). F2: degrees up to 30 (C70_violated_31). Fp and F2^n: as long as the computed sizes and powers do not overflow (C70_violated_fp_power); the lists are not restricted to monic polynomials as the header says (C70_violated_monic)."),
"C88": ("partial", "Every modulus and positive dimension for which the powers do not overflow; affine space of dimension 0 is refused (C88_violated_zero)."),
})

STATUS.update({
"C71": ("partial", "Every n and history: the cyclotomic polynomial or overflow of an intermediate coefficient; overflow ruled out for n up to 33 and for prime powers; missing: the exact set of n without overflow. Over F2 undefined as soon as the degree exceeds 30 (C71_violated_f2)."),
"C89": ("partial", "Exact for fractions and over Fp^n. Over Fp and F2^n the degree is too large if the leading coefficient vanishes (C89_violated_fp); over F2 degrees from 32 on are undefined (C89_violated_f2)."),
})

STATUS.update({
"C68": ("proved", "Every source, modulus and degree; polynomials over Fp for every p up to INT_MAX, residues of these for p up to 46341."),
})

STATUS.update({
"C90": ("partial", "Parsing: every argument list and every element type. Values: residues modulo primes up to 46341 for literals that are not negative (C90_violated_fp_negative) and exponents other than INT_MIN (C90_violated_int_min); rationals up to int overflow. The integer calculator divides by zero and takes negative powers (C90_violated_z_*). Values of the polynomial types: C96; of matrices and vectors: C98."),
"C91": ("partial", "Integers exactly. Residues: from_string exactly, operator>> for texts of numbers that are not negative (C91_violated_mod_negative). Rationals: every text of an integer or fraction and the round trip; texts of nothing or of a number out of range are read as numbers (C91_violated_rat_*)."),
})

STATUS.update({"C92": ("partial", "Proved for every bit source: F2 up to degree INT_MAX, Fp for primes up to 46341, F2[x]/(m) for irreducible m of degree at most 30. The search loop has no bound in the source; the theorems say for every number of rounds whether it has ended. Missing: larger primes and moduli; the polynomial x is never returned over any field (C92_violated_x).")})

STATUS.update({"C93": ("partial", "from_string: every text, with its outcome. Printing and reading back, from strings and streams: Fp up to 2^30 (polynomials) and 46341 (residues and Fp^n), every F2^n. Violated: empty coefficients are skipped, trailing garbage after a number is ignored, a text of separators only leaves the object pointing to freed memory or is undefined (C93_violated_fp_*), rational coefficients lose their denominators and constants of several digits or with a sign do not survive (C93_q_round_trip, C93_violated_q_*), general streams fail at their end (C93_violated_f2n_stream_end).")})

STATUS.update({"C94": ("partial", "Every text and size, and every element type with its bounds of C91 and C93. Violated: a last line without newline is lost (C94_violated_last_line), a line holding only a comment ends the matrix (C94_violated_comment_line), blanks after the last element of a vector make it fail (C94_violated_trailing_blank), leading white space moves the line buffer until it overruns (C94_violated_drift), a vector of rationals followed by something unreadable is read for ever (C94_violated_rat_forever). Bits and bit vectors: C97.")})

STATUS.update({"C95": ("partial", "Every square matrix whose characteristic polynomial splits in a field of degree at most 30 over F2. Missing: larger splitting fields; there factoring throws or is undefined, even for diagonal matrices (C95_violated_31, C95_violated_32).")})

STATUS.update({"C96": ("partial", "Every expression of every one of the eight calculators: what is printed is right. Exact (never undefined) for residues over F2, and for polynomials and residues over Fp and F2^n without unary minus and the exponent INT_MIN. Violated: minus a polynomial of positive degree is undefined (C96_violated_*_neg), a zero of several words times a shorter polynomial writes out of bounds (C96_violated_f2_zero). Literals must be texts of values; reading the moduli from the command line is C93.")})

STATUS.update({"C97": ("partial", "Every text for bits, vectors and matrices without rows before reading: accepted exactly as described, never undefined. Round trips up to 2^30 elements (vectors) and 4096 columns (matrices). Violated: reading into a matrix that has rows fails, yields a matrix without columns, or reads out of bounds (C97_violated_reread*); a last line without newline is lost (C97_violated_last_line); blanks at the end of a vector or row, or before a comment, make it fail (C97_violated_trailing_blank, C97_violated_comment); wide matrices and long vectors on general streams are not read back (C97_violated_wide_matrix, C97_violated_long_vector).")})

STATUS.update({"C98": ("partial", "Every expression of the ten calculators, for literals that are texts of matrices or vectors (or malformed in the ways listed). Exact over F2, Fp and F2^n, for exponents other than INT_MIN; over Fp^n without unary minus and kerbas, which may be undefined (C96_violated_fpmod_neg); over the rationals up to int overflow. For rr, rrnz and kerbas the value is any matrix with the defining property; expressions without these have one value (C98_value_unique) and it is the one printed (C98_*_value). Violated: powers of bit vectors ignore the exponent (C98_violated_bit_power); vectors of different lengths in one expression write out of bounds (C98_violated_lengths). Missing: other expressions with vectors of different lengths.")})

STATUS.update({"C99": ("partial", "Reading, printing, round trip and zero denominators: all quotients. Calculators: every expression and matrix expression; exact over F2; over Fp without unary minus and kerbas; over F2^n exact without these and right or undefined with them; exponents other than INT_MIN. Violated: texts that do not start with a polynomial are accepted as zero (C99_violated_*_garbage) and make vectors be read for ever (C99_violated_*_forever); minus a polynomial of positive degree is undefined (C99_violated_*_minus), and over Fp minus 1/d is not equal to its own value (C99_violated_fp_minus_eq); the reader for general streams does not fail at their end (C99_violated_*_stream_end).")})

STATUS.update({"C100": ("partial", "Exact text for all ints in z_totient; for all but INT_MIN in z_gcd, z_test_prime, z_factor and z_divisors -mp; nth_prime for ranges in 1..6542 and beyond it. z_gcd -e and z_lcm for products in range, z_list if the number after the last one is in range, z_divisors within the bounds of C35. Violated: signs of gcd and lcm, overflow of the check after z_gcd -e and a zero argument (C100_violated_gcd_sign, C100_violated_lcm, C100_violated_ext_*), the totient of 1, the divisors of 0, the overflow past the end of a list (C100_violated_totient, C100_violated_divisors, C100_violated_list), status 0 for exceptions and unknown commands (C100_violated_status), nth_prime is registered under another name (C100_violated_nth_prime_name). Standard error and the calculators z_op, z_mat_op (C90, C98) are not part of it.")})

STATUS.update({"C101": ("partial", "Exact for every polynomial: f2_p_deg, f2_p_gcd, f2_p_comp_mx; up to degree INT_MAX: f2_p_test -i, f2_p_find -i, f2_p_factor, f2_p_divisors -mp, f2_p_eval (2147483583); f2_p_divisors for fewer than 2^31 divisors and not for zero (C101_violated_divisors); f2_p_totient for non-zero polynomials with fewer than 2^31 - 1 units; f2_p_lcm without two zeros (C101_violated_lcm); -p and -ip up to degree 30, f2_p_period up to 15, f2_p_list and f2_p_qp up to 30. The random searches are C92 and C79; f2_p_random, the calculator f2_p_op (C96) and standard error are not part of it. The shifts of trim are given any value, as in C53.")})

STATUS.update({"C102": ("partial", "Primes up to 46341. Exact for every polynomial: fp_p_deg, fp_p_gcd, fp_p_eval, fp_p_comp_mx; up to degree INT_MAX: fp_p_test, fp_p_find, fp_p_factor, fp_p_divisors -mp; fp_p_divisors for fewer than 2^31 divisors and not for zero; fp_p_gcd -e for a non-zero second argument; fp_p_lcm without two zeros; fp_p_totient for p^(2n) < 2^31; fp_p_list where the numbers of polynomials fit; fp_p_qp for integer coefficients other than -2^31. Violated: an empty argument is undefined for p < 10 (C102_violated_empty); fp_p_gcd -e with a second argument 0 and fp_p_lcm of two zeros throw (C102_violated_ext, C102_violated_lcm); the divisors of 0 (C102_violated_divisors); the maximal divisors of a polynomial that is not monic are not monic, unlike those listed without -mp (C102_violated_maximal); companion matrices of polynomials that are not monic (C102_comp_mx); leading zeros printed by fp_p_qp (C102_violated_qp). fp_p_random, the calculator (C96) and standard error are not part of it.")})

STATUS.update({"C103": ("partial", "Exact for every irreducible modulus and every polynomial: f2n_p_deg, f2n_p_gcd, f2n_p_eval, f2n_p_comp_mx; for moduli up to degree 30 and polynomials up to degree INT_MAX: f2n_p_test, f2n_p_find, f2n_p_factor, f2n_p_divisors -mp; f2n_p_divisors for fewer than 2^31 divisors and not for zero; f2n_p_gcd -e for a non-zero second argument; f2n_p_lcm without two zeros; f2n_p_totient and f2n_p_list where the numbers fit in an int; f2n_p_qp for integer coefficients other than -2^31. Violated as C102: C103_violated_ext, C103_violated_lcm, C103_violated_divisors, C103_violated_maximal, C103_comp_mx, C103_violated_qp. f2n_p_random, the calculator (C96) and standard error are not part of it.")})

STATUS.update({"C104": ("partial", "fp_list for moduli from 2 to INT_MAX; all other commands for moduli from 2 to 46341. Lists, tables and generators are those of the program for every sort that puts residues in ascending order. Violated: fp_list -u 1 and -nu 1 throw (C104_violated_list_one); fp_ord of a non-unit and fp_log of a residue that is no power of the base throw after the label (C104_ord, C104_log); fp_tbl log:g for g that is no generator throws in the middle of the table (C104_tbl_log); fp_find_gen reports a missing generator but the status is 0 (C104_violated_find_gen_status); fp_orbit tests coprimality with the gcd of constant polynomials over F2, so it refuses only even numbers for even moduli and otherwise prints n + 1 lines before it fails (C104_violated_orbit_coprime), prints two lines for negative numbers congruent to 1 (C104_violated_orbit_negative), fails modulo 1 (C104_violated_orbit_one) and overflows from 46342 on (C104_violated_orbit_overflow). fp_random, the matrix commands and the calculator (C90, C96) are not part of it.")})

STATUS.update({"C105": ("partial", "f2_pm_list and f2_pm_log for moduli of degree 1 to 30; f2_pm_tbl, f2_pm_ord and f2_pm_find_gen for degree 1 to 15, reducible ones included; f2_pm_min_pol and f2_pm_ch_pol for irreducible moduli; f2_pm_convert for irreducible moduli of degree up to 15 and 30. For every sort that puts residues in ascending order. Violated: listing all residues throws for degree 31 and is undefined above (C105_violated_list_31); the order is undefined for irreducible moduli of degree 17 (C105_violated_ord_17); the search for a generator throws when it meets a residue that is no unit, for instance for all multiples of x (C105_find_gen, C105_violated_find_gen), so the message for missing generators is never printed; minimal and characteristic polynomial loop forever for a reducible modulus (C105_violated_min_pol); logarithms are not reduced modulo the order (C105_violated_log); the bound proved for them is 2^31 (C105_log_partial); orders of non-units and logarithms of other residues throw after the label. f2_pm_random, the matrix commands and the calculator (C94) are not part of it.")})

STATUS.update({"C106": ("partial", "p up to 46341, F2^n with n up to 30. Listings and tables for as many residues as in C70 (p^(2 deg) and 2^(2 n deg) below 2^31 for units); fp_pm_ord for orders that fit in an int, in as many rounds of its loop; f2n_pm_ord and f2n_pm_find_gen in the range of C59 and C60, reducible moduli included; minimal and characteristic polynomials for irreducible moduli. For every sort that puts residues in ascending order. Violated: a residue written with nothing but commas or colons is undefined behaviour (C106_violated_fp_commas, C106_violated_f2n_colons); orders beyond an int overflow (C106_violated_fp_ord); minimal and characteristic polynomials of a nilpotent residue other than 0 never end (C106_violated_fp_hang, C106_violated_f2n_hang); fp_pm_mat_op and fp_pm_vecop call a null pointer where they should print their usage (C106_violated_null_usage); f2n_pm_find_gen throws if a non-unit comes before all generators (C106_violated_f2n_find_gen); f2n_pm_log and f2n_pm_tbl log print lines about the work of f2n_polymod_log (C106_f2n_log_partial, C106_f2n_tbl_log_partial), and throw for powers with large exponents (C106_violated_f2n_log); fp_pm_tbl has no tables of logarithms and powers (C106_fp_tbl_usage). fp_pm_random, f2n_pm_random, the calculators (C94) and the matrix commands are not part of it.")})

STATUS.update({"C107": ("partial", "p up to 46341, elements written as in C94, orders up to 2147483647 in as many rounds of the loop; f2_pm_mat_diagonalizable is C113. Violated: the order commands do not look at the stream: with no rows or a bad first row the behaviour is undefined, with rows of different lengths, a bad later row or a matrix that is not square there is an uncaught exception (C107_violated_f2_ord, C107_violated_fp_ord, C107_violated_f2n_ord, C107_violated_fpn_ord); orders beyond int overflow the counter, and there are such matrices (C107_violated_order); the last line is dropped if it has no newline (C107_violated_last_line); negative entries and composite moduli (C107_violated_residues); a right-hand side of another length (C107_violated_length).")})

STATUS.update({"C108": ("partial", "p up to 46341, irreducible moduli; for fpn_p_gcd -e and for q_cyclotomic beyond 33 and the prime powers the statement is that what is printed is right or the behaviour is undefined. Violated: fpn_p_gcd -e negates coefficients of positive degree, which is undefined (C108_violated_ext); it throws if the second polynomial is zero (C108_violated_ext_zero); commas alone are undefined behaviour (C108_violated_commas).")})

STATUS.update({"C109": ("partial", "the ranges and exceptions of C90, C96, C98 and C99 (for q_op, polynomials and their residues the value is printed or the behaviour is undefined where a coefficient is negated or an int overflows); z_op without powers and comparisons; what follows the expression is nothing or begins with a closing bracket, and C109_only says what a calculator can have printed for any arguments. Violated: an expression followed by a closing bracket and anything is printed before the error, with status 0 (C109_violated_extra); fp_pm_mat_op and fp_pm_vecop call a null usage function (C109_violated_null_usage).")})

STATUS.update({"C110": ("partial", "the shell is modelled for command lines of plain words (letters, digits, _ - + . , : / % ^ @ and lone braces) and arbitrary otherwise; the output of a command in braces has no line of more than 4095 bytes (C72); all 136 commands are modelled. Violated: an unknown name gives status 0 (C110_violated_unknown), inside braces it vanishes with its arguments (C110_violated_inner); what a command in braces printed before an exception is used (C110_violated_error); nth_prime is not reachable by its name (C110_violated_nth_prime); parentheses in braces reach the shell (C110_violated_shell).")})

STATUS.update({"C113": ("partial", "q_p_op: exact for sums, differences and products in range (C113_q_p_op_exact); for the other operators the behaviour may be undefined, as it is on overflow. f2_pm_mat_diagonalizable: splitting fields of degree up to 30. Violated: over F_{2^31} the command throws after the characteristic polynomial and over F_{2^32} it is undefined (C113_violated_31, C113_violated_32); unary minus of a polynomial of positive degree is undefined (C113_violated_minus); what follows the digits and commas of an argument of q_p_op is ignored, so 1/2 is 1 (C113_violated_ignored); an argument of commas frees memory twice (C113_violated_commas).")})

STATUS.update({"C114": ("partial", "Contents, order, independence and memory safety for all programs whose counts stay in the range of int (C114_factor_lists), for ints and polynomials over F2 without further assumptions (C114_int, C114_f2_poly); C114_list_model shows that the list model used for the factorization functions leaves nothing out. Violated: growing leaves the old array allocated for good (C114_violated_leak); operator= lacks its return statement, and self-assignment loses the contents (C114_violated_self_assign).")})

STATUS.update({"C115": ("proved", "fp_poly_t; the f2n and fpn versions always throw. Moduli 0, 1 and -1 are undefined behaviour for every int but 0 (C115_violated_modulus: division by zero, or a count that overflows), moduli below -1 are refused with an exception (C115_negative_modulus).")})
STATUS.update({"C116": ("partial", "Contents, separateness and memory safety for all programs over the integers modulo m and over F2[x]/m (C116_fp, C116_f2n); over Q unless an int overflows, over Fp[x]/M unless a residue of degree 1 or more is negated (C116_q_partial, C116_fpn_partial). Not covered by these: negating a non-constant polynomial (undefined, see C37) and I/O; a coefficient is a value, its own arrays are not counted. C116_same_outcome compares the arrays with the value model for all programs. Violated: every sum, difference, product, negation and proper division leaves one array allocated for good (C116_violated_leak); self-assignment loses the coefficients (C116_violated_self_assign); dividing by a polynomial of larger degree with a result in the dividend loses the remainder (C116_violated_quotient_in_dividend, C116_violated_remainder_in_dividend).")})

STATUS.update({"C117": ("partial", "The formulas (C117_sum) and the list (C117_solutions, C117_points) are right. The program around the formulas is not: check_point has the signs of a and b reversed and ignores z, so a sum is printed only if both points and the sum pass the wrong check (C117_main_partial is exact; C117_violated_sign, C117_violated_infinity). Right for the curve y^2 = x^3 + 1 of tbl.sh (C117_default_curve). Reading the arguments is not modelled.")})
STATUS.update({"C118": ("partial", "Right for all pairs of points (C118_main_partial) except a point of order two added to itself, where the program divides by zero and ends with an exception (C118_violated_order_two). Reading the arguments is not modelled.")})

STATUS.update({"C119": ("partial", "Sums, differences, negatives and products are right as polynomials (C119_intmod, C119_f2mod; C119_fpmod_partial unless the negative of a non-constant residue is taken, C119_q_partial unless an int overflows). Violated: products keep terms with the coefficient 0, which cannot be printed (C119_violated_zero_terms; C119_product says exactly when there are none); the constructor for three terms forgets the third (C119_violated_three_terms). The arrays behind the list of terms, the scanner and the printed text are not modelled.")})
STATUS.update({"C121": ("partial", "C121_moebius, C121_count, C121_count_dvd and C121_rows for degrees 1 to 30. calc_moebius(0) is 1, degree 0 divides by zero and degree 31 overflows (C121_violated_moebius, C121_violated_range).")})
STATUS.update({"C123": ("partial", "Products, find_row and the comparison with a scalar in full for every element type (EltRef); scaling by an own element is right only for the last position or where later elements do not matter: C123_mult_own and C123_div_own give the exact results, C123_violated_mult_own and C123_violated_div_own refute the claim for every other position modulo a prime.")})
STATUS.update({"C124": ("partial", "Both checks of tmatrix in full for every element type over a field (EltRef), check_inverse of bit matrices in full; check_kernel_basis and == of bit matrices do not look at the last word of a row (C124_bit_kernel_computes, C124_bit_eq_computes), so with up to 64 rows or columns they accept everything (C124_violated_kernel, C124_violated_eq).")})
STATUS.update({"C125": ("partial", "C125_table_partial and C125_pairs for coprime moduli from 2 to 46341 with a product up to 2^30; above that the table ends in undefined behaviour (C125_violated_overflow), and the modulus 1 is refused (C125_violated_one); larger moduli with small products (one modulus above 46341) are not covered, their reciprocals may overflow (C13).")})
STATUS.update({"C126": ("proved", "C126_value and C126_prints for every coefficient type over a field (CoefRef), C126_program and C126_charpoly for the types of the program with an irreducible modulus, C126_not_square; reading the arguments is C93 and C94.")})
STATUS.update({"C127": ("partial", "C127_frob, C127_frobit for every modulus, C127_orbit for irreducible moduli, C127_refused; for reducible reductors, which the user may give, the rows need not be an orbit (C127_violated_reducible: modulo x^n the last two rows are equal).")})
STATUS.update({"C128": ("partial", "C128_embed; C128_affine_partial for any reductor other than 0 within the sizes where int_power does not overflow; C128_projective_partial for polynomials that are not homogeneous, in fewer than 8 variables, and irreducible reductors. For homogeneous polynomials the program ends before it prints (C128_violated_homogeneous). Reading the polynomial is not modelled.")})
STATUS.update({"C122": ("partial", "C122_list for degrees 1 to 29 with any mask in trim of the bit vectors, C122_list_partial with the mask as the program computes it, read as in C53; degree 30 overflows (C122_violated_30).")})
STATUS.update({"C120": ("partial", "Values and derivatives for all polynomials (C120_value, C120_f2mod_value, C120_derivative; values with exponents that are not negative, derivatives modulo m with m times the largest exponent within int). Degree and homogeneity for polynomials without zero terms (C120_degree); the degree of a product is found too large where the leading terms cancel (C120_violated_degree). homogenize for fewer than 8 variables (C120_homogenize); with 8 it ends the program (C120_homogenize_full).")})

STATUS.update({"C111": ("partial", "for every source of words; the seeding is not modelled. fp_pm_random and fp_pm_mat_random: p prime up to 46341; f2n commands: irreducible modulus of the field. Commands over F2, F2[x], F2[x]/m, F2(x), Fp and Fp[x]: without these restrictions.")})

STATUS.update({"C112": ("partial", "violated for determinants that are no units (printed as 0: C112_violated_det). Inverses, ranks and powers that are not positive are covered only where all entries are constants. z_mat_op: where an int overflows or a pivot that is not the last divides by 0 the behaviour is undefined; polynomials over F2, F2^n and Fp^n: undefined outside the sizes of C94; polynomials over Fp and F2^n: undefined only with unary minus or kerbas.")})
