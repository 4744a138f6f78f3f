{
 "claims": [
  {
   "property": "C01",
   "status": "partial",
   "theorems": [
    "Spffl.C01_int_gcd_partial",
    "Spffl.C01_int_gcd_greatest",
    "Spffl.C01_violated_sign",
    "Spffl.C01_ub_iff"
   ],
   "note": "Proved for all ints except INT_MIN, result up to sign; the full statement is false: int_gcd(0,-4) = -4 (C01_violated_sign), and INT_MIN with a non-zero partner is undefined (C01_ub_iff)."
  },
  {
   "property": "C02",
   "status": "proved",
   "theorems": [
    "Spffl.C02_int_ext_gcd",
    "Spffl.C02_zero_divisor"
   ],
   "note": "All a, b other than INT_MIN with b != 0, no overflow of any intermediate; b = 0 proved undefined."
  },
  {
   "property": "C03",
   "status": "partial",
   "theorems": [
    "Spffl.C03_int_lcm_partial",
    "Spffl.C03_violated",
    "Spffl.C03_zero"
   ],
   "note": "Proved whenever the product a*b is representable; violated otherwise (C03_violated: lcm(65536,65536) overflows; C03_zero)."
  },
  {
   "property": "C04",
   "status": "partial",
   "theorems": [
    "Spffl.C04_int_power_partial",
    "Spffl.C04_int_power_zero",
    "Spffl.C04_violated"
   ],
   "note": "Exact characterisation proved; the full statement is false: 2^16 is representable but the call overflows in an unused squaring (C04_violated)."
  },
  {
   "property": "C05",
   "status": "proved",
   "theorems": [
    "Spffl.C05_int_sqrt_floor",
    "Spffl.C05_int_sqrt_ceil",
    "Spffl.C05_int_sqrt_negative"
   ],
   "note": ""
  },
  {
   "property": "C06",
   "status": "partial",
   "theorems": [
    "Spffl.C06_int_totient_partial",
    "Spffl.C06_violated"
   ],
   "note": "Proved for n >= 2; false at n = 1 (C06_violated)."
  },
  {
   "property": "C07",
   "status": "proved",
   "theorems": [
    "Spffl.C07_is_prime",
    "Spffl.C07_isprime_trial",
    "Spffl.C07_int_min"
   ],
   "note": "All ints other than INT_MIN, for which negation overflows (C07_int_min)."
  },
  {
   "property": "C08",
   "status": "proved",
   "theorems": [
    "Spffl.C08_nth_prime",
    "Spffl.C08_table",
    "Spffl.C08_table_sorted"
   ],
   "note": "The whole 6542-entry table is checked by kernel evaluation and lifted to Nat.Prime."
  },
  {
   "property": "C09",
   "status": "proved",
   "theorems": [
    "Spffl.C09_find_msb_16",
    "Spffl.C09_find_msb_32",
    "Spffl.C09_find_msb_64",
    "Spffl.C09_find_lsb_32",
    "Spffl.C09_find_lsb_64",
    "Spffl.C09_log2_32",
    "Spffl.C09_log2_64"
   ],
   "note": ""
  },
  {
   "property": "C10",
   "status": "proved",
   "theorems": [
    "Spffl.C10_log10_floor"
   ],
   "note": ""
  },
  {
   "property": "C11",
   "status": "proved",
   "theorems": [
    "Spffl.FacInfo.C11_int_factor",
    "Spffl.FacInfo.C11_int_min"
   ],
   "note": "Every int except INT_MIN, which is proved undefined."
  },
  {
   "property": "C12",
   "status": "partial",
   "theorems": [
    "Spffl.IntMod.C12_construct",
    "Spffl.IntMod.C12_add",
    "Spffl.IntMod.C12_sub",
    "Spffl.IntMod.C12_neg",
    "Spffl.IntMod.C12_mul",
    "Spffl.IntMod.C12_mul_safe",
    "Spffl.IntMod.C12_mul_violated",
    "Spffl.IntMod.C12_mixed"
   ],
   "note": "Exact outcome proved for every modulus; the full statement is false for moduli above 46341, where products overflow (C12_mul_violated)."
  },
  {
   "property": "C13",
   "status": "partial",
   "theorems": [
    "Spffl.IntMod.C13_recip_history",
    "Spffl.IntMod.C13_recip_unique",
    "Spffl.IntMod.C13_div",
    "Spffl.IntMod.C13_violated_large",
    "Spffl.IntMod.C13_modulus_one"
   ],
   "note": "Every history of calls with moduli 2..46341; false above (C13_violated_large), and modulus 1 throws (C13_modulus_one)."
  },
  {
   "property": "C14",
   "status": "partial",
   "theorems": [
    "Spffl.IntMod.C14_exp_pos",
    "Spffl.IntMod.C14_exp_zero",
    "Spffl.IntMod.C14_exp_neg",
    "Spffl.IntMod.C14_violated_int_min"
   ],
   "note": "Moduli up to 46341 and all exponents except INT_MIN, which is undefined (C14_violated_int_min)."
  },
  {
   "property": "C15",
   "status": "proved",
   "theorems": [
    "Spffl.IntMod.C15_mixed_moduli",
    "Spffl.IntMod.C15_unspecified"
   ],
   "note": ""
  },
  {
   "property": "C16",
   "status": "partial",
   "theorems": [
    "Spffl.IntMod.C16_read_partial",
    "Spffl.IntMod.C16_violated"
   ],
   "note": "Non-negative integers; false for every negative integer not divisible by the modulus (C16_violated)."
  },
  {
   "property": "C17",
   "status": "partial",
   "theorems": [
    "Spffl.Props.Rat17.C17_construct",
    "Spffl.Props.Rat17.C17_unique",
    "Spffl.Props.Rat17.C17_exact",
    "Spffl.Props.Rat17.C17_never_wrong",
    "Spffl.Props.Rat17.C17_violated_int_min",
    "Spffl.Props.Rat17.C17_compare",
    "Spffl.Props.Rat17.C17_exp"
   ],
   "note": "Exact whenever the intermediate integers are representable and none to be simplified is INT_MIN; undefined at INT_MIN (C17_violated_int_min). Whatever is returned is always exact (C17_never_wrong)."
  },
  {
   "property": "C18",
   "status": "proved",
   "theorems": [
    "Spffl.F2P.C18_canonical_unique",
    "Spffl.F2P.C18_add",
    "Spffl.F2P.C18_neg"
   ],
   "note": ""
  },
  {
   "property": "C19",
   "status": "partial",
   "theorems": [
    "Spffl.F2P.C19_mul_partial",
    "Spffl.F2P.C19_violated",
    "Spffl.F2P.C19_noncanonical"
   ],
   "note": "Proved when the left factor is canonical (as every operation except multiplication by zero leaves it); false otherwise: (0 * x^100) * 1 reads out of bounds (C19_violated)."
  },
  {
   "property": "C20",
   "status": "proved",
   "theorems": [
    "Spffl.F2P.C20_quot_and_rem",
    "Spffl.F2P.C20_operators",
    "Spffl.F2P.C20_zero"
   ],
   "note": ""
  },
  {
   "property": "C21",
   "status": "proved",
   "theorems": [
    "Spffl.F2P.C21_gcd",
    "Spffl.F2P.C21_symmetric"
   ],
   "note": ""
  },
  {
   "property": "C22",
   "status": "proved",
   "theorems": [
    "Spffl.F2P.C22_ext_gcd"
   ],
   "note": ""
  },
  {
   "property": "C23",
   "status": "proved",
   "theorems": [
    "Spffl.F2P.C23_exp",
    "Spffl.F2P.C23_one",
    "Spffl.F2P.C23_throws"
   ],
   "note": ""
  },
  {
   "property": "C24",
   "status": "proved",
   "theorems": [
    "Spffl.F2P.C24_deriv",
    "Spffl.F2P.C24_square_root",
    "Spffl.F2P.C24_deriv_zero"
   ],
   "note": ""
  },
  {
   "property": "C25",
   "status": "proved",
   "theorems": [
    "Spffl.F2P.C25_eval"
   ],
   "note": "Polynomials of fewer than 2^31 bits."
  },
  {
   "property": "C26",
   "status": "proved",
   "theorems": [
    "Spffl.F2P.C26_order",
    "Spffl.F2P.C26_injective",
    "Spffl.F2P.C26_eq_int"
   ],
   "note": ""
  },
  {
   "property": "C27",
   "status": "proved",
   "theorems": [
    "Spffl.F2P.C27_increment",
    "Spffl.F2P.C27_enumerates"
   ],
   "note": ""
  },
  {
   "property": "C28",
   "status": "proved",
   "theorems": [
    "Spffl.F2P.C28_print",
    "Spffl.F2P.C28_round_trip",
    "Spffl.F2P.C28_read",
    "Spffl.F2P.C28_fail"
   ],
   "note": ""
  },
  {
   "property": "C29",
   "status": "partial",
   "theorems": [
    "Spffl.F2P.C29_bit_at",
    "Spffl.F2P.C29_set_bit",
    "Spffl.F2P.C29_set_coeff_partial",
    "Spffl.F2P.C29_violated",
    "Spffl.F2P.C29_violated_ub"
   ],
   "note": "set_bit and bit_at for all positions; set_coeff only for bit offsets below 31, false at 31 and undefined from 32 on (C29_violated, C29_violated_ub)."
  },
  {
   "property": "C30",
   "status": "proved",
   "theorems": [
    "Spffl.Props.C30_constructor",
    "Spffl.Props.C30_ring",
    "Spffl.Props.C30_unique",
    "Spffl.Props.C30_all_classes",
    "Spffl.Props.C30_mixed"
   ],
   "note": ""
  },
  {
   "property": "C31",
   "status": "proved",
   "theorems": [
    "Spffl.Props.C31_recip",
    "Spffl.Props.C31_div",
    "Spffl.Props.C31_field"
   ],
   "note": ""
  },
  {
   "property": "C32",
   "status": "partial",
   "theorems": [
    "Spffl.Props.C32_exp",
    "Spffl.Props.C32_neg",
    "Spffl.Props.C32_int_min"
   ],
   "note": "Every modulus, residue and exponent except exponent INT_MIN of a non-zero residue, which is undefined (C32_int_min)."
  },
  {
   "property": "C33",
   "status": "proved",
   "theorems": [
    "Spffl.FacInfo.C33_sorted_multiset",
    "Spffl.FacInfo.C33_count"
   ],
   "note": "Generic over element types; all building programs whose counts fit an int."
  },
  {
   "property": "C34",
   "status": "proved",
   "theorems": [
    "Spffl.FacInfo.C34_unfactor"
   ],
   "note": "Generic over element types; all building programs whose counts fit an int and whose value is representable."
  },
  {
   "property": "C35",
   "status": "partial",
   "theorems": [
    "Spffl.FacInfo.C35_num_divisors",
    "Spffl.FacInfo.C35_all_divisors_partial",
    "Spffl.FacInfo.C35_violated",
    "Spffl.FacInfo.C35_maximal_divisors"
   ],
   "note": "Divisor count and maximal proper divisors for all ints; the full list under an explicit no-overflow condition, false without it (C35_violated)."
  },
  {
   "property": "C36",
   "status": "partial",
   "theorems": [
    "Spffl.Props.CM.C36_fpn",
    "Spffl.Props.CM.C36_fpn_violated",
    "Spffl.Props.CP.C36_fp_exists",
    "Spffl.Props.CP.C36_fp_meaning",
    "Spffl.Props.CP.C36_fp",
    "Spffl.Props.CP.C36_f2n",
    "Spffl.Props.CP.C36_q",
    "Spffl.Props.CP.C36_fp_compare",
    "Spffl.Props.CP.C36_fp_exp",
    "Spffl.Props.CM.C36_fpn_violated_sub"
   ],
   "note": "fp_poly_t for moduli 2..46341, f2n_poly_t for all moduli, q_poly_t up to coefficient overflow; fpn_poly_t except that subtracting a polynomial of larger degree is undefined when a negated coefficient is not constant (C36_fpn_violated)."
  },
  {
   "property": "C37",
   "status": "partial",
   "theorems": [
    "Spffl.Props.CP.C37_fp_const_partial",
    "Spffl.Props.CP.C37_fp_violated",
    "Spffl.Props.CP.C37_f2n_violated"
   ],
   "note": "Constants only; unary minus of every non-constant polynomial writes out of bounds (C37_fp_violated, C37_f2n_violated)."
  },
  {
   "property": "C38",
   "status": "proved",
   "theorems": [
    "Spffl.Props.CM.C38_fpn",
    "Spffl.Props.CP.C38_fp",
    "Spffl.Props.CP.C38_fp_prime",
    "Spffl.Props.CP.C38_f2n",
    "Spffl.Props.CP.C38_q"
   ],
   "note": "fp_poly_t for moduli 2..46341, f2n_poly_t for all moduli, q_poly_t up to coefficient overflow."
  },
  {
   "property": "C39",
   "status": "partial",
   "theorems": [
    "Spffl.Props.CM.C39_fpn",
    "Spffl.Props.CP.C39_fp_gcd",
    "Spffl.Props.CP.C39_fp_bezout",
    "Spffl.Props.CP.C39_fp_violated",
    "Spffl.Props.CP.C39_f2n",
    "Spffl.Props.CP.C39_q"
   ],
   "note": "ext_gcd throws when the second argument is zero (C39_fp_violated); everything else proved."
  },
  {
   "property": "C40",
   "status": "partial",
   "theorems": [
    "Spffl.Props.CM.C40_fpn_eval",
    "Spffl.Props.CM.C40_fpn_deriv_violated",
    "Spffl.Props.CP.C40_fp",
    "Spffl.Props.CP.C40_f2n",
    "Spffl.Props.CP.C40_q"
   ],
   "note": "Everything except the derivative of fpn_poly_t, which is wrong (C40_fpn_deriv_violated); derivative for degrees that fit an int."
  },
  {
   "property": "C41",
   "status": "partial",
   "theorems": [
    "Spffl.Props.CM.C41_exists",
    "Spffl.Props.CM.C41_functional",
    "Spffl.Props.CM.C41_construct",
    "Spffl.Props.CM.C41_ring",
    "Spffl.Props.CM.C41_div",
    "Spffl.Props.CM.C41_exp",
    "Spffl.Props.CM.C41_mixed",
    "Spffl.Props.CM.C41_mulInt_partial",
    "Spffl.Props.CM.C41_violated_negative",
    "Spffl.Props.CM.C41_violated_scalar",
    "Spffl.Props.CM.C41_neg_partial",
    "Spffl.Props.CM.C41_f2n",
    "Spffl.Props.CM.C41_fpn_exists",
    "Spffl.Props.CM.C41_fpn_partial",
    "Spffl.Props.CM.C41_fpn_violated_sub",
    "Spffl.Props.CM.C41_fpn_mulInt_partial",
    "Spffl.Props.CM.C41_fpn_violated_negative",
    "Spffl.Props.CM.C41_fpn_characteristic"
   ],
   "note": "Ring operations, division, powers for all primes up to 46341 and all moduli; scalar multiplication scales the modulus (C41_violated_scalar), negative int multiples return the object unchanged (C41_violated_negative), unary minus is undefined for non-constant residues (C41_neg_partial). fpn_polymod_t, polynomials modulo a polynomial over Fp[y]/(n), is covered by C41_fpn_*: sums, products, quotients and powers are right or undefined, subtraction is undefined for non-constant coefficients (C41_fpn_violated_sub)."
  },
  {
   "property": "C42",
   "status": "proved",
   "theorems": [
    "Spffl.Props.TM.C42_inst_intmod",
    "Spffl.Props.TM.C42_inst_f2_polymod",
    "Spffl.Props.TM.C42_inst_fp_polymod",
    "Spffl.Props.TM.C42_inst_intrat",
    "Spffl.Props.TM.C42_exists",
    "Spffl.Props.TM.C42_functional",
    "Spffl.Props.TM.C42_matrix",
    "Spffl.Props.TM.C42_products",
    "Spffl.Props.TM.C42_vector",
    "Spffl.Props.TM.C42_diagonal",
    "Spffl.Props.TM.C42_mismatch",
    "Spffl.Props.TM.C42_fp"
   ],
   "note": "Any element type refining a commutative ring; intmod_t, f2_polymod_t, fp_polymod_t outright, intrat_t up to overflow."
  },
  {
   "property": "C43",
   "status": "proved",
   "theorems": [
    "Spffl.Props.TM.C43_row_echelon",
    "Spffl.Props.TM.C43_row_reduce",
    "Spffl.Props.TM.C43_rank",
    "Spffl.Props.TM.C43_fp",
    "Spffl.Props.TM.C43_f2n"
   ],
   "note": "Any element type refining a field."
  },
  {
   "property": "C44",
   "status": "proved",
   "theorems": [
    "Spffl.Props.TM.C44_det",
    "Spffl.Props.TM.C44_nonsquare",
    "Spffl.Props.TM.C44_fp",
    "Spffl.Props.TM.C44_f2n"
   ],
   "note": "Any element type refining a field; a non-square matrix throws."
  },
  {
   "property": "C45",
   "status": "partial",
   "theorems": [
    "Spffl.Props.TM.C45_kernel",
    "Spffl.Props.TM.C45_fp",
    "Spffl.Props.TM.C45_fpn_partial",
    "Spffl.Props.TM.C45_violated"
   ],
   "note": "Every element type with a working unary minus; over fp_polymod_t the unary minus of a non-constant residue is undefined (C45_violated)."
  },
  {
   "property": "C46",
   "status": "proved",
   "theorems": [
    "Spffl.Props.TM.C46_inverse",
    "Spffl.Props.TM.C46_paste_split_partial",
    "Spffl.Props.TM.C46_fp",
    "Spffl.Props.TM.C46_f2n",
    "Spffl.Props.TM.C46_violated_paste"
   ],
   "note": "Any element type refining a field. paste itself is wrong on non-square matrices (C46_violated_paste), which inverse never passes it."
  },
  {
   "property": "C47",
   "status": "partial",
   "theorems": [
    "Spffl.Props.TM.C47_solve_partial",
    "Spffl.Props.TM.C47_fp_partial",
    "Spffl.Props.TM.C47_violated"
   ],
   "note": "Proved when the output vector is empty or has room; otherwise it writes past the end of it (C47_violated)."
  },
  {
   "property": "C48",
   "status": "partial",
   "theorems": [
    "Spffl.Props.TM.C48_pos",
    "Spffl.Props.TM.C48_neg_partial",
    "Spffl.Props.TM.C48_zero_partial",
    "Spffl.Props.TM.C48_zeromat",
    "Spffl.Props.TM.C48_fp_pos",
    "Spffl.Props.TM.C48_violated_int_min",
    "Spffl.Props.TM.C48_violated_zero"
   ],
   "note": "All positive powers; negative powers except INT_MIN, which is undefined (C48_violated_int_min); the zeroth power of a singular matrix is refused (C48_violated_zero, C48_zeromat)."
  },
  {
   "property": "C49",
   "status": "partial",
   "theorems": [
    "Spffl.Props.BM.C49_bit_vector_partial",
    "Spffl.Props.BM.C49_bit_vector_violated",
    "Spffl.Props.TM.C49_tvector_partial",
    "Spffl.Props.TM.C49_tvector_violated"
   ],
   "note": "tvector and bit_vector_t: proved exactly when the destination is empty or big enough; every other assignment writes out of bounds (C49_tvector_violated, C49_bit_vector_violated)."
  },
  {
   "property": "C50",
   "status": "partial",
   "theorems": [
    "Spffl.Props.BM.C50_some_mask",
    "Spffl.Props.BM.C50_vector_partial",
    "Spffl.Props.BM.C50_access",
    "Spffl.Props.BM.C50_leader",
    "Spffl.Props.BM.C50_mismatch",
    "Spffl.Props.BM.C50_exists",
    "Spffl.Props.BM.C50_functional",
    "Spffl.Props.BM.C50_eq_computes",
    "Spffl.Props.BM.C50_violated_eq",
    "Spffl.Props.BM.C50_fill_zero",
    "Spffl.Props.BM.C50_fill_one_partial",
    "Spffl.Props.BM.C50_violated_fill"
   ],
   "note": "Access, arithmetic, dot product, zero test and leading position for every length; equality ignores the last word (C50_eq_computes, C50_violated_eq); fill construction is undefined unless the length is a multiple of 64 (C50_violated_fill)."
  },
  {
   "property": "C51",
   "status": "proved",
   "theorems": [
    "Spffl.Props.BM.C51_exists",
    "Spffl.Props.BM.C51_functional",
    "Spffl.Props.BM.C51_row_reduce",
    "Spffl.Props.BM.C51_row_echelon_form",
    "Spffl.Props.BM.C51_rank",
    "Spffl.Props.BM.C51_kernel",
    "Spffl.Props.BM.C51_kernel_total",
    "Spffl.Props.BM.C51_square",
    "Spffl.Props.BM.C51_arith",
    "Spffl.Props.BM.C51_power",
    "Spffl.Props.BM.C51_violated_strict"
   ],
   "note": "All shapes. The kernel basis, product and powers construct a zero-filled matrix whose mask expression is undefined read literally (C51_violated_strict); the theorems hold whatever value it yields."
  },
  {
   "property": "C52",
   "status": "partial",
   "theorems": [
    "Spffl.Props.BM.C52_violated",
    "Spffl.Props.BM.C52_violated_exp",
    "Spffl.Props.BM.C52_violated_outer"
   ],
   "note": "Refuted: inverse throws for every square matrix (C52_violated), hence so do non-positive powers (C52_violated_exp)."
  },
  {
   "property": "C53",
   "status": "proved",
   "theorems": [
    "Spffl.Props.C53_factor",
    "Spffl.Props.C53_factor_total",
    "Spffl.Props.C53_constant",
    "Spffl.Props.C53_violated_strict"
   ],
   "note": "Every degree up to INT_MAX; factors irreducible, strictly increasing, multiplicities positive, product f; constants become the unit. As for C51, read literally the kernel basis is undefined when the degree is not a multiple of 64 (C53_violated_strict)."
  },
  {
   "property": "C54",
   "status": "proved",
   "theorems": [
    "Spffl.Props.C54_is_irreducible",
    "Spffl.Props.C54_is_irreducible_total"
   ],
   "note": "Every polynomial of degree up to INT_MAX, same reading of the mask as C53."
  },
  {
   "property": "C55",
   "status": "partial",
   "theorems": [
    "Spffl.Props.C55_least_partial",
    "Spffl.Props.C55_total_partial",
    "Spffl.Props.C55_odd",
    "Spffl.Props.C55_nonpositive",
    "Spffl.Props.C55_violated"
   ],
   "note": "All degrees from 2 on; for degree 1 the search returns x + 1 although x is less (C55_violated). Degrees below 1 throw."
  },
  {
   "property": "C56",
   "status": "proved",
   "theorems": [
    "Spffl.Props.C56_factor",
    "Spffl.Props.C56_constant"
   ],
   "note": "Primes up to 46341, every degree up to INT_MAX; factors monic irreducible, strictly increasing, multiplicities positive, product times unit is f; constants become the unit."
  },
  {
   "property": "C57",
   "status": "partial",
   "theorems": [
    "Spffl.Props.C57_factor_partial",
    "Spffl.Props.C57_constant_partial",
    "Spffl.Props.C57_violated_31",
    "Spffl.Props.C57_violated_32"
   ],
   "note": "All irreducible moduli up to degree 30; for degree 31 factoring throws and from 32 on it is undefined (C57_violated_31, C57_violated_32)."
  },
  {
   "property": "C58",
   "status": "partial",
   "theorems": [
    "Spffl.Props.C58_totient_partial",
    "Spffl.Props.C58_units",
    "Spffl.Props.C58_totient_total_partial",
    "Spffl.Props.C58_violated",
    "Spffl.Props.C58_violated_exists"
   ],
   "note": "Whenever the totient is below 2^31 - 1; for irreducible f of degree 31 the value 2^31 - 1 is representable but the computation overflows (C58_violated)."
  },
  {
   "property": "C59",
   "status": "partial",
   "theorems": [
    "Spffl.Props.C59_f2_order_partial",
    "Spffl.Props.C59_f2_small",
    "Spffl.Props.C59_f2_nonunit",
    "Spffl.Props.C59_violated_17",
    "Spffl.Props.C59_violated_exists",
    "Spffl.Props.C59_fp_order",
    "Spffl.Props.C59_f2n_order_partial",
    "Spffl.Props.C59_f2n_nonunit"
   ],
   "note": "Z/n: every modulus 2..46341. F2[x]/(m): every modulus up to degree 15, and beyond whenever the divisors of the number of units can be listed; for irreducible m of degree 17 the result is undefined for every unit (C59_violated_17). K[y]/(M): while 2^(2 deg m deg M) fits an int. Non-units throw for every modulus."
  },
  {
   "property": "C60",
   "status": "partial",
   "theorems": [
    "Spffl.Props.C60_f2_generator_partial",
    "Spffl.Props.C60_f2_small",
    "Spffl.Props.C60_violated_reducible",
    "Spffl.Props.C60_fp_generator",
    "Spffl.Props.C60_f2n_generator_partial"
   ],
   "note": "Z/n: every modulus 2..46341, least generator or false. F2[x]/(m), K[y]/(M): irreducible moduli, least generator; for reducible moduli the search throws although a generator exists (C60_violated_reducible)."
  },
  {
   "property": "C61",
   "status": "partial",
   "theorems": [
    "Spffl.Props.C61_sort_exists",
    "Spffl.Props.C61_f2_log_partial",
    "Spffl.Props.C61_violated_31",
    "Spffl.Props.C61_violated_32",
    "Spffl.Props.C61_fp_log",
    "Spffl.Props.C61_f2n_log_partial",
    "Spffl.Props.C61_violated_f2n"
   ],
   "note": "Z/n: every modulus 2..46341. F2[x]/(m): every modulus up to degree 30; 31 throws, beyond is undefined (C61_violated_31, _32). K[y]/(M): results are correct, but exponents above 2^deg M are not searched (C61_violated_f2n). For every sorting function."
  },
  {
   "property": "C62",
   "status": "partial",
   "theorems": [
    "Spffl.Props.C62_is_primitive_partial",
    "Spffl.Props.C62_is_primitive_30",
    "Spffl.Props.C62_period_partial",
    "Spffl.Props.C62_violated_31"
   ],
   "note": "Test: every polynomial with fewer than 2^31 - 1 units (all of degree up to 30); undefined for every irreducible polynomial of degree 31 (C62_violated_31). Period: degree up to 15."
  },
  {
   "property": "C63",
   "status": "partial",
   "theorems": [
    "Spffl.Props.LA.C63_f2",
    "Spffl.Props.LA.C63_f2_round_trip",
    "Spffl.Props.LA.C63_fp",
    "Spffl.Props.LA.C63_fp_round_trip",
    "Spffl.Props.LA.C63_f2n",
    "Spffl.Props.LA.C63_f2n_round_trip",
    "Spffl.Props.LA.C63_violated_constant"
   ],
   "note": "Every monic polynomial of positive degree over F2, Fp (p up to 46341) and F2^n, also through the code's own characteristic polynomial; constants throw (C63_violated_constant)."
  },
  {
   "property": "C64",
   "status": "proved",
   "theorems": [
    "Spffl.Props.LA.C64_f2_char_poly",
    "Spffl.Props.LA.C64_nonsquare",
    "Spffl.Props.LA.C64_annihilates"
   ],
   "note": "Every square matrix, with Cayley-Hamilton, degree and constant term; non-square matrices throw."
  },
  {
   "property": "C65",
   "status": "proved",
   "theorems": [
    "Spffl.Props.LA.C65_orbit_min",
    "Spffl.Props.LA.C65_orbit_char",
    "Spffl.Props.LA.C65_orbit_meaning",
    "Spffl.Props.LA.C65_frobenius_length",
    "Spffl.Props.LA.C65_kernel_min",
    "Spffl.Props.LA.C65_kernel_char",
    "Spffl.Props.LA.C65_reducible_loops"
   ],
   "note": "Every irreducible modulus and element, by orbit and by linear algebra (degrees below INT_MAX for the latter); for reducible moduli the length loop need not end (C65_reducible_loops)."
  },
  {
   "property": "C66",
   "status": "proved",
   "theorems": [
    "Spffl.C66_hash_bijective"
   ],
   "note": ""
  },
  {
   "property": "C67",
   "status": "proved",
   "theorems": [
    "Spffl.C67_state_period",
    "Spffl.C67_outputs_once",
    "Spffl.C67_outputs32_uniform"
   ],
   "note": ""
  },
  {
   "property": "C68",
   "status": "proved",
   "theorems": [
    "Spffl.Props.C68_intmod",
    "Spffl.Props.C68_f2_poly",
    "Spffl.Props.C68_f2_poly_negative",
    "Spffl.Props.C68_fp_poly_negative",
    "Spffl.Props.C68_f2n_poly_negative",
    "Spffl.Props.C68_fp_poly",
    "Spffl.Props.C68_f2n_poly",
    "Spffl.Props.C68_f2_polymod",
    "Spffl.Props.C68_f2_polymod_constant",
    "Spffl.Props.C68_f2_polymod_uniform",
    "Spffl.Props.C68_fp_polymod",
    "Spffl.Props.C68_fp_polymod_uniform",
    "Spffl.Props.C68_f2n_polymod",
    "Spffl.Props.C68_f2n_polymod_uniform"
   ],
   "note": "Every source, modulus and degree; polynomials over Fp for every p up to INT_MAX, residues of these for p up to 46341."
  },
  {
   "property": "C69",
   "status": "proved",
   "theorems": [
    "Spffl.Props.Text.C69_tokenize",
    "Spffl.Props.Text.C69_count",
    "Spffl.Props.Text.C69_tokens"
   ],
   "note": "Every line and separator set; the pointer array must have room for the tokens stored."
  },
  {
   "property": "C70",
   "status": "partial",
   "theorems": [
    "Spffl.Props.C70_int_all",
    "Spffl.Props.C70_int_units",
    "Spffl.Props.C70_int_non_units",
    "Spffl.Props.C70_int_multiples",
    "Spffl.Props.C70_int_rel_prime",
    "Spffl.Props.C70_int_other",
    "Spffl.Props.C70_violated_one",
    "Spffl.Props.C70_f2_poly_partial",
    "Spffl.Props.C70_f2_all_partial",
    "Spffl.Props.C70_f2_units_partial",
    "Spffl.Props.C70_f2_non_units_partial",
    "Spffl.Props.C70_f2_multiples_partial",
    "Spffl.Props.C70_f2_rel_prime_partial",
    "Spffl.Props.C70_violated_31",
    "Spffl.Props.C70_violated_all_31",
    "Spffl.Props.C70_fp_poly_partial",
    "Spffl.Props.C70_violated_monic",
    "Spffl.Props.C70_violated_fp_power",
    "Spffl.Props.C70_fp_all_partial",
    "Spffl.Props.C70_fp_units_partial",
    "Spffl.Props.C70_fp_non_units_partial",
    "Spffl.Props.C70_f2n_poly_partial",
    "Spffl.Props.C70_f2n_all_partial",
    "Spffl.Props.C70_f2n_units_partial",
    "Spffl.Props.C70_f2n_non_units_partial"
   ],
   "note": "Z/m: every modulus but 1 (C70_violated_one). F2: degrees up to 30 (C70_violated_31). Fp and F2^n: as long as the computed sizes and powers do not overflow (C70_violated_fp_power); the lists are not restricted to monic polynomials as the header says (C70_violated_monic)."
  },
  {
   "property": "C71",
   "status": "partial",
   "theorems": [
    "Spffl.Props.C71_memo_start",
    "Spffl.Props.C71_qpoly_partial",
    "Spffl.Props.C71_qpoly_small",
    "Spffl.Props.C71_qpoly_prime_power",
    "Spffl.Props.C71_nonpositive",
    "Spffl.Props.C71_history_partial",
    "Spffl.Props.C71_fp_partial",
    "Spffl.Props.C71_f2n_partial",
    "Spffl.Props.C71_fpn_partial",
    "Spffl.Props.C71_f2_partial",
    "Spffl.Props.C71_violated_f2"
   ],
   "note": "Every n and history: the cyclotomic polynomial or overflow of an intermediate coefficient; overflow ruled out for n up to 33 and for prime powers; missing: the exact set of n without overflow. Over F2 undefined as soon as the degree exceeds 30 (C71_violated_f2)."
  },
  {
   "property": "C72",
   "status": "partial",
   "theorems": [
    "Spffl.Props.Text.C72_balance",
    "Spffl.Props.Text.C72_match",
    "Spffl.Props.Text.C72_refuses",
    "Spffl.Props.Text.C72_clean",
    "Spffl.Props.Text.C72_command_partial",
    "Spffl.Props.Text.C72_interpolate_partial",
    "Spffl.Props.Text.C72_items",
    "Spffl.Props.Text.C72_violated_long",
    "Spffl.Props.Text.C72_violated_forever"
   ],
   "note": "Balance check, matching and refusal: every list. Replacement: outputs without lines of more than 4095 bytes and without brackets; longer tokens are split (C72_violated_long), and brackets in outputs are evaluated again, possibly for ever (C72_violated_forever)."
  },
  {
   "property": "C73",
   "status": "proved",
   "theorems": [
    "Spffl.C73_count_one_bits"
   ],
   "note": "Buffers below 2^28 bytes, beyond which the int accumulator overflows."
  },
  {
   "property": "C74",
   "status": "proved",
   "theorems": [
    "Spffl.Props.Stacks.C74_lifo",
    "Spffl.Props.Stacks.C74_violated_self_assign"
   ],
   "note": "Every program of constructions, copies, pushes, pops and destructions; operator= lacks its return statement and is not among the operations, its body loses the elements on self-assignment (C74_violated_self_assign)."
  },
  {
   "property": "C75",
   "status": "partial",
   "theorems": [
    "Spffl.Props.F2Rat.C75_mk",
    "Spffl.Props.F2Rat.C75_of_poly",
    "Spffl.Props.F2Rat.C75_arith",
    "Spffl.Props.F2Rat.C75_eq",
    "Spffl.Props.F2Rat.C75_exp",
    "Spffl.Props.F2Rat.C75_violated_int_min",
    "Spffl.Props.F2Rat.C75_compare",
    "Spffl.Props.F2Rat.C75_violated_order"
   ],
   "note": "All fractions; every exponent but INT_MIN (C75_violated_int_min). The comparisons are consistent with each other and with equality but not transitive (C75_violated_order)."
  },
  {
   "property": "C76",
   "status": "partial",
   "theorems": [
    "Spffl.Props.C76_fp_is_irreducible",
    "Spffl.Props.C76_f2n_is_irreducible",
    "Spffl.Props.C76_fp_least_partial",
    "Spffl.Props.C76_fp_any",
    "Spffl.Props.C76_f2n_least_partial",
    "Spffl.Props.C76_f2n_any",
    "Spffl.Props.C76_nonpositive",
    "Spffl.Props.C76_violated"
   ],
   "note": "The tests for every polynomial; the searches for all degrees from 2 on; for degree 1 the search never returns x, the least one (C76_violated)."
  },
  {
   "property": "C77",
   "status": "partial",
   "theorems": [
    "Spffl.Props.C77_roots",
    "Spffl.Props.C77_violated_zero"
   ],
   "note": "Every non-zero polynomial; the zero polynomial is reported to have no roots (C77_violated_zero)."
  },
  {
   "property": "C78",
   "status": "partial",
   "theorems": [
    "Spffl.Props.C78_fp_totient_partial",
    "Spffl.Props.C78_units",
    "Spffl.Props.C78_fp_exact_partial",
    "Spffl.Props.C78_f2n_totient_partial",
    "Spffl.Props.C78_violated_fp",
    "Spffl.Props.C78_violated_f2n"
   ],
   "note": "Whenever the powers formed on the way are representable; int_power squares once too often, so representable totients overflow (C78_violated_fp, C78_violated_f2n)."
  },
  {
   "property": "C79",
   "status": "partial",
   "theorems": [
    "Spffl.Props.C79_find_prim_partial",
    "Spffl.Props.C79_find_prim_total",
    "Spffl.Props.C79_find_prim_nonpositive",
    "Spffl.Props.C79_random",
    "Spffl.Props.C79_violated_search"
   ],
   "note": "Degrees 1 to 30, with and without the irreducibility requirement; for degree 31 the search never returns (C79_violated_search). Random search for every sequence of random values."
  },
  {
   "property": "C80",
   "status": "proved",
   "theorems": [
    "Spffl.Props.LA.C80_fp",
    "Spffl.Props.LA.C80_f2n",
    "Spffl.Props.LA.C80_nonsquare"
   ],
   "note": "Every square matrix; primes up to 46341, every irreducible modulus."
  },
  {
   "property": "C81",
   "status": "partial",
   "theorems": [
    "Spffl.Props.LA.C81_f2_partial",
    "Spffl.Props.LA.C81_fp_partial",
    "Spffl.Props.LA.C81_f2n_partial",
    "Spffl.Props.LA.C81_violated_zero",
    "Spffl.Props.LA.C81_nonsquare"
   ],
   "note": "Every non-zero square matrix over F2[x], Fp[x], F2^n[y]; zero matrices of every size throw (C81_violated_zero)."
  },
  {
   "property": "C82",
   "status": "partial",
   "theorems": [
    "Spffl.Props.LA.C82_f2_vector",
    "Spffl.Props.LA.C82_f2_matrix",
    "Spffl.Props.LA.C82_fp_vector",
    "Spffl.Props.LA.C82_f2n_vector_partial",
    "Spffl.Props.LA.C82_violated_32"
   ],
   "note": "Every int for F2, every non-negative int for Fp; F2^n for moduli up to degree 31, undefined for every larger degree (C82_violated_32)."
  },
  {
   "property": "C83",
   "status": "partial",
   "theorems": [
    "Spffl.Props.LA.C83_echelon_f2",
    "Spffl.Props.LA.C83_echelon_fp",
    "Spffl.Props.LA.C83_echelon_f2n",
    "Spffl.Props.LA.C83_inverse_f2",
    "Spffl.Props.LA.C83_inverse_fp_partial",
    "Spffl.Props.LA.C83_inverse_f2n_partial",
    "Spffl.Props.LA.C83_violated_fp",
    "Spffl.Props.LA.C83_nonsquare"
   ],
   "note": "Echelon form: every non-zero matrix. Inverse: exact over F2[x]; over Fp[x] and F2^n[y] a returned inverse is right, but invertible matrices are refused, e.g. [2] over F5[x] (C83_violated_fp)."
  },
  {
   "property": "C84",
   "status": "partial",
   "theorems": [
    "Spffl.Props.LA.C84_of_int",
    "Spffl.Props.LA.C84_ops",
    "Spffl.Props.LA.C84_exp_partial",
    "Spffl.Props.LA.C84_violated_exp",
    "Spffl.Props.LA.C84_assign_partial",
    "Spffl.Props.LA.C84_violated_assign",
    "Spffl.Props.LA.C84_matrix",
    "Spffl.Props.LA.C84_rank_kernel",
    "Spffl.Props.LA.C84_det_inverse"
   ],
   "note": "All operators and matrix functions; exp is wrong for 0 with exponents at most 0 (C84_violated_exp), assignment of an integer does not reduce it (C84_violated_assign)."
  },
  {
   "property": "C85",
   "status": "partial",
   "theorems": [
    "Spffl.Props.LA.C85_fp_min_partial",
    "Spffl.Props.LA.C85_f2n_min_partial"
   ],
   "note": "Every irreducible modulus and element for primes up to 46341 and for F2^n with n up to 30; missing: larger coefficient fields."
  },
  {
   "property": "C86",
   "status": "partial",
   "theorems": [
    "Spffl.Props.LA.C86_sort_exists",
    "Spffl.Props.LA.C86_prep_partial",
    "Spffl.Props.LA.C86_prep_iff",
    "Spffl.Props.LA.C86_convert_partial",
    "Spffl.Props.LA.C86_refuses",
    "Spffl.Props.LA.C86_violated_31",
    "Spffl.Props.LA.C86_violated_32"
   ],
   "note": "Every pair of irreducible moduli with degrees up to 30, every generator; for first moduli of degree 31 or more conversion throws or is undefined (C86_violated_31, C86_violated_32)."
  },
  {
   "property": "C87",
   "status": "partial",
   "theorems": [
    "Spffl.Props.CRat.C87_fp",
    "Spffl.Props.CRat.C87_neg_partial",
    "Spffl.Props.CRat.C87_violated_neg_ub",
    "Spffl.Props.CRat.C87_violated_neg_eq",
    "Spffl.Props.CRat.C87_f2n",
    "Spffl.Props.CRat.C87_f2n_neg_partial"
   ],
   "note": "All fractions and operators except unary minus, which is undefined for non-constant numerators (C87_violated_neg_ub) and leaves the normal form otherwise, so that equality fails for odd p (C87_violated_neg_eq)."
  },
  {
   "property": "C88",
   "status": "partial",
   "theorems": [
    "Spffl.Props.C88_f2_affine_partial",
    "Spffl.Props.C88_f2_projective_partial",
    "Spffl.Props.C88_fp_affine_partial",
    "Spffl.Props.C88_fp_projective_partial",
    "Spffl.Props.C88_violated_zero"
   ],
   "note": "Every modulus and positive dimension for which the powers do not overflow; affine space of dimension 0 is refused (C88_violated_zero)."
  },
  {
   "property": "C89",
   "status": "partial",
   "theorems": [
    "Spffl.Props.C89_fraction",
    "Spffl.Props.C89_bit",
    "Spffl.Props.C89_fp_partial",
    "Spffl.Props.C89_violated_fp",
    "Spffl.Props.C89_fpn",
    "Spffl.Props.C89_f2_partial",
    "Spffl.Props.C89_violated_f2",
    "Spffl.Props.C89_f2n_partial"
   ],
   "note": "Exact for fractions and over Fp^n. Over Fp and F2^n the degree is too large if the leading coefficient vanishes (C89_violated_fp); over F2 degrees from 32 on are undefined (C89_violated_f2)."
  },
  {
   "property": "C90",
   "status": "partial",
   "theorems": [
    "Spffl.Props.Expr90.C90_scalar",
    "Spffl.Props.Expr90.C90_vector",
    "Spffl.Props.Expr90.C90_matrix",
    "Spffl.Props.Expr90.C90_only",
    "Spffl.Props.Expr90.C90_total",
    "Spffl.Props.Expr90.C90_reject",
    "Spffl.Props.Expr90.C90_unambiguous",
    "Spffl.Props.Expr90.C90_printable",
    "Spffl.Props.Expr90.C90_fp_partial",
    "Spffl.Props.Expr90.C90_fp_total",
    "Spffl.Props.Expr90.C90_violated_fp_negative",
    "Spffl.Props.Expr90.C90_violated_int_min",
    "Spffl.Props.Expr90.C90_q_partial",
    "Spffl.Props.Expr90.C90_violated_z_div_zero",
    "Spffl.Props.Expr90.C90_violated_z_negative_exponent",
    "Spffl.Props.Expr90.C90_exponent"
   ],
   "note": "Parsing: every argument list and every element type. Values: residues modulo primes up to 46341 for literals that are not negative (C90_violated_fp_negative) and exponents other than INT_MIN (C90_violated_int_min); rationals up to int overflow. The integer calculator divides by zero and takes negative powers (C90_violated_z_*). Values of the polynomial types: C96; of matrices and vectors: C98."
  },
  {
   "property": "C91",
   "status": "partial",
   "theorems": [
    "Spffl.Props.Scan91.C91_int",
    "Spffl.Props.Scan91.C91_int_round_trip",
    "Spffl.Props.Scan91.C91_int_injective",
    "Spffl.Props.Scan91.C91_mod_from_string",
    "Spffl.Props.Scan91.C91_mod_read",
    "Spffl.Props.Scan91.C91_mod_round_trip",
    "Spffl.Props.Scan91.C91_violated_mod_negative",
    "Spffl.Props.Scan91.C91_rat",
    "Spffl.Props.Scan91.C91_rat_round_trip",
    "Spffl.Props.Scan91.C91_rat_bad_denominator",
    "Spffl.Props.Scan91.C91_rat_empty",
    "Spffl.Props.Scan91.C91_violated_rat_not_a_number",
    "Spffl.Props.Scan91.C91_violated_rat_overflow",
    "Spffl.Props.Scan91.C91_violated_rat_stream_end"
   ],
   "note": "Integers exactly. Residues: from_string exactly, operator>> for texts of numbers that are not negative (C91_violated_mod_negative). Rationals: every text of an integer or fraction and the round trip; texts of nothing or of a number out of range are read as numbers (C91_violated_rat_*)."
  },
  {
   "property": "C92",
   "status": "partial",
   "theorems": [
    "Spffl.Props.C92_f2",
    "Spffl.Props.C92_f2_draw",
    "Spffl.Props.C92_nonpositive",
    "Spffl.Props.C92_f2_sound",
    "Spffl.Props.C92_f2_reach",
    "Spffl.Props.C92_fp_draw",
    "Spffl.Props.C92_fp",
    "Spffl.Props.C92_fp_sound",
    "Spffl.Props.C92_fp_reach",
    "Spffl.Props.C92_f2n_draw",
    "Spffl.Props.C92_f2n",
    "Spffl.Props.C92_f2n_sound",
    "Spffl.Props.C92_f2n_reach",
    "Spffl.Props.C92_fp_nonpositive",
    "Spffl.Props.C92_f2n_nonpositive",
    "Spffl.Props.C92_violated_x"
   ],
   "note": "Proved for every bit source: F2 up to degree INT_MAX, Fp for primes up to 46341, F2[x]/(m) for irreducible m of degree at most 30. The search loop has no bound in the source; the theorems say for every number of rounds whether it has ended. Missing: larger primes and moduli; the polynomial x is never returned over any field (C92_violated_x)."
  },
  {
   "property": "C93",
   "status": "partial",
   "theorems": [
    "Spffl.Props.PText93.C93_fp_digits",
    "Spffl.Props.PText93.C93_fp_list",
    "Spffl.Props.PText93.C93_violated_fp_empty",
    "Spffl.Props.PText93.C93_violated_fp_garbage",
    "Spffl.Props.PText93.C93_violated_fp_dangling",
    "Spffl.Props.PText93.C93_violated_fp_large_modulus",
    "Spffl.Props.PText93.C93_fp_print",
    "Spffl.Props.PText93.C93_fp_round_trip",
    "Spffl.Props.PText93.C93_fp_stream",
    "Spffl.Props.PText93.C93_fp_stream_refused",
    "Spffl.Props.PText93.C93_fp_stream_round_trip",
    "Spffl.Props.PText93.C93_q_digits",
    "Spffl.Props.PText93.C93_q_list",
    "Spffl.Props.PText93.C93_q_round_trip",
    "Spffl.Props.PText93.C93_violated_q_constant",
    "Spffl.Props.PText93.C93_violated_q_refused",
    "Spffl.Props.PText93.C93_violated_q_stream_sign",
    "Spffl.Props.PText93.C93_f2mod_from_string",
    "Spffl.Props.PText93.C93_f2mod_round_trip",
    "Spffl.Props.PText93.C93_f2mod_stream",
    "Spffl.Props.PText93.C93_f2n_from_string",
    "Spffl.Props.PText93.C93_f2n_print",
    "Spffl.Props.PText93.C93_f2n_round_trip",
    "Spffl.Props.PText93.C93_f2n_stream",
    "Spffl.Props.PText93.C93_violated_f2n_stream_end",
    "Spffl.Props.PText93.C93_f2n_stream_round_trip",
    "Spffl.Props.PText93.C93_fpn_from_string",
    "Spffl.Props.PText93.C93_fpn_print",
    "Spffl.Props.PText93.C93_fpn_round_trip",
    "Spffl.Props.PText93.C93_fpn_stream",
    "Spffl.Props.PText93.C93_fpn_stream_round_trip",
    "Spffl.Props.PText93.C93_fpmod_from_string",
    "Spffl.Props.PText93.C93_fpmod_round_trip",
    "Spffl.Props.PText93.C93_fpnmod_from_string",
    "Spffl.Props.PText93.C93_fpnmod_round_trip",
    "Spffl.Props.PText93.C93_f2nmod_from_string",
    "Spffl.Props.PText93.C93_f2nmod_round_trip"
   ],
   "note": "from_string: every text, with its outcome. Printing and reading back, from strings and streams: Fp up to 2^30 (polynomials) and 46341 (residues and Fp^n), every F2^n. Violated: empty coefficients are skipped, trailing garbage after a number is ignored, a text of separators only leaves the object pointing to freed memory or is undefined (C93_violated_fp_*), rational coefficients lose their denominators and constants of several digits or with a sign do not survive (C93_q_round_trip, C93_violated_q_*), general streams fail at their end (C93_violated_f2n_stream_end)."
  },
  {
   "property": "C94",
   "status": "partial",
   "theorems": [
    "Spffl.Props.VText94.C94_vector_read",
    "Spffl.Props.VText94.C94_vector_refused",
    "Spffl.Props.VText94.C94_violated_trailing_blank",
    "Spffl.Props.VText94.C94_vector_no_zero",
    "Spffl.Props.VText94.C94_vector_round_trip",
    "Spffl.Props.VText94.C94_vector_line",
    "Spffl.Props.VText94.C94_vector_line_too_long",
    "Spffl.Props.VText94.C94_vector_bracket",
    "Spffl.Props.VText94.C94_vector_bracket_missing",
    "Spffl.Props.VText94.C94_matrix_read",
    "Spffl.Props.VText94.C94_matrix_ragged",
    "Spffl.Props.VText94.C94_matrix_bad_row",
    "Spffl.Props.VText94.C94_matrix_no_rows",
    "Spffl.Props.VText94.C94_matrix_no_zero",
    "Spffl.Props.VText94.C94_matrix_round_trip",
    "Spffl.Props.VText94.C94_violated_last_line",
    "Spffl.Props.VText94.C94_violated_comment_line",
    "Spffl.Props.VText94.C94_violated_drift",
    "Spffl.Props.VText94.C94_matrix_bracket",
    "Spffl.Props.VText94.C94_matrix_column",
    "Spffl.Props.VText94.C94_check_ragged",
    "Spffl.Props.VText94.C94_int",
    "Spffl.Props.VText94.C94_int_zero",
    "Spffl.Props.VText94.C94_mod",
    "Spffl.Props.VText94.C94_mod_zero",
    "Spffl.Props.VText94.C94_rat",
    "Spffl.Props.VText94.C94_rat_zero",
    "Spffl.Props.VText94.C94_violated_rat_forever",
    "Spffl.Props.VText94.C94_f2",
    "Spffl.Props.VText94.C94_f2_zero",
    "Spffl.Props.VText94.C94_f2mod",
    "Spffl.Props.VText94.C94_f2mod_zero",
    "Spffl.Props.VText94.C94_fp",
    "Spffl.Props.VText94.C94_fp_refused",
    "Spffl.Props.VText94.C94_fp_zero",
    "Spffl.Props.VText94.C94_fpmod",
    "Spffl.Props.VText94.C94_fpmod_zero",
    "Spffl.Props.VText94.C94_fpn",
    "Spffl.Props.VText94.C94_fpn_zero",
    "Spffl.Props.VText94.C94_fpnmod",
    "Spffl.Props.VText94.C94_fpnmod_zero",
    "Spffl.Props.VText94.C94_f2n",
    "Spffl.Props.VText94.C94_f2n_zero",
    "Spffl.Props.VText94.C94_f2nmod",
    "Spffl.Props.VText94.C94_f2nmod_zero"
   ],
   "note": "Every text and size, and every element type with its bounds of C91 and C93. Violated: a last line without newline is lost (C94_violated_last_line), a line holding only a comment ends the matrix (C94_violated_comment_line), blanks after the last element of a vector make it fail (C94_violated_trailing_blank), leading white space moves the line buffer until it overruns (C94_violated_drift), a vector of rationals followed by something unreadable is read for ever (C94_violated_rat_forever). Bits and bit vectors: C97."
  },
  {
   "property": "C95",
   "status": "partial",
   "theorems": [
    "Spffl.Props.LA.C95_partial",
    "Spffl.Props.LA.C95_total_partial",
    "Spffl.Props.LA.C95_nonsquare",
    "Spffl.Props.LA.C95_violated_31",
    "Spffl.Props.LA.C95_violated_32"
   ],
   "note": "Every square matrix whose characteristic polynomial splits in a field of degree at most 30 over F2. Missing: larger splitting fields; there factoring throws or is undefined, even for diagonal matrices (C95_violated_31, C95_violated_32)."
  },
  {
   "property": "C96",
   "status": "partial",
   "theorems": [
    "Spffl.Props.Expr96.C96_f2_partial",
    "Spffl.Props.Expr96.C96_violated_f2_zero",
    "Spffl.Props.Expr96.C96_f2mod",
    "Spffl.Props.Expr96.C96_fp_partial",
    "Spffl.Props.Expr96.C96_violated_fp_neg",
    "Spffl.Props.Expr96.C96_fpmod_partial",
    "Spffl.Props.Expr96.C96_violated_fpmod_neg",
    "Spffl.Props.Expr96.C96_f2n_partial",
    "Spffl.Props.Expr96.C96_violated_f2n_neg",
    "Spffl.Props.Expr96.C96_f2nmod_partial",
    "Spffl.Props.Expr96.C96_fpn_partial",
    "Spffl.Props.Expr96.C96_violated_fpn_neg",
    "Spffl.Props.Expr96.C96_fpnmod_partial"
   ],
   "note": "Every expression of every one of the eight calculators: what is printed is right. Exact (never undefined) for residues over F2, and for polynomials and residues over Fp and F2^n without unary minus and the exponent INT_MIN. Violated: minus a polynomial of positive degree is undefined (C96_violated_*_neg), a zero of several words times a shorter polynomial writes out of bounds (C96_violated_f2_zero). Literals must be texts of values; reading the moduli from the command line is C93."
  },
  {
   "property": "C97",
   "status": "partial",
   "theorems": [
    "Spffl.Props.BText97.C97_bit_read",
    "Spffl.Props.BText97.C97_bit_refused",
    "Spffl.Props.BText97.C97_bit_from_string",
    "Spffl.Props.BText97.C97_bit_round_trip",
    "Spffl.Props.BText97.C97_vector_read",
    "Spffl.Props.BText97.C97_vector_refused",
    "Spffl.Props.BText97.C97_violated_trailing_blank",
    "Spffl.Props.BText97.C97_vector_show",
    "Spffl.Props.BText97.C97_vector_round_trip",
    "Spffl.Props.BText97.C97_vector_line",
    "Spffl.Props.BText97.C97_violated_long_vector",
    "Spffl.Props.BText97.C97_matrix_read",
    "Spffl.Props.BText97.C97_matrix_ragged",
    "Spffl.Props.BText97.C97_matrix_bad_row",
    "Spffl.Props.BText97.C97_matrix_long_line",
    "Spffl.Props.BText97.C97_matrix_no_rows",
    "Spffl.Props.BText97.C97_matrix_total",
    "Spffl.Props.BText97.C97_matrix_round_trip",
    "Spffl.Props.BText97.C97_violated_wide_matrix",
    "Spffl.Props.BText97.C97_violated_last_line",
    "Spffl.Props.BText97.C97_violated_comment",
    "Spffl.Props.BText97.C97_violated_reread",
    "Spffl.Props.BText97.C97_violated_reread_blank",
    "Spffl.Props.BText97.C97_violated_reread_many"
   ],
   "note": "Every text for bits, vectors and matrices without rows before reading: accepted exactly as described, never undefined. Round trips up to 2^30 elements (vectors) and 4096 columns (matrices). Violated: reading into a matrix that has rows fails, yields a matrix without columns, or reads out of bounds (C97_violated_reread*); a last line without newline is lost (C97_violated_last_line); blanks at the end of a vector or row, or before a comment, make it fail (C97_violated_trailing_blank, C97_violated_comment); wide matrices and long vectors on general streams are not read back (C97_violated_wide_matrix, C97_violated_long_vector)."
  },
  {
   "property": "C98",
   "status": "partial",
   "theorems": [
    "Spffl.Props.Expr98.C98_matrix",
    "Spffl.Props.Expr98.C98_vector",
    "Spffl.Props.Expr98.C98_violated_lengths",
    "Spffl.Props.Expr98.C98_fp_matrix",
    "Spffl.Props.Expr98.C98_fp_vector",
    "Spffl.Props.Expr98.C98_bit",
    "Spffl.Props.Expr98.C98_f2_matrix",
    "Spffl.Props.Expr98.C98_f2_vector_partial",
    "Spffl.Props.Expr98.C98_violated_bit_power",
    "Spffl.Props.Expr98.C98_f2n_matrix",
    "Spffl.Props.Expr98.C98_f2n_vector",
    "Spffl.Props.Expr98.C98_fpn_matrix_partial",
    "Spffl.Props.Expr98.C98_fpn_vector_partial",
    "Spffl.Props.Expr98.C98_q_matrix_partial",
    "Spffl.Props.Expr98.C98_q_vector_partial",
    "Spffl.Props.Expr98.C98_reduced_unique",
    "Spffl.Props.Expr98.C98_value_unique",
    "Spffl.Props.Expr98.C98_fp_value",
    "Spffl.Props.Expr98.C98_f2_value",
    "Spffl.Props.Expr98.C98_f2n_value",
    "Spffl.Props.Expr98.C98_fpn_value_partial",
    "Spffl.Props.Expr98.C98_q_value_partial"
   ],
   "note": "Every expression of the ten calculators, for literals that are texts of matrices or vectors (or malformed in the ways listed). Exact over F2, Fp and F2^n, for exponents other than INT_MIN; over Fp^n without unary minus and kerbas, which may be undefined (C96_violated_fpmod_neg); over the rationals up to int overflow. For rr, rrnz and kerbas the value is any matrix with the defining property; expressions without these have one value (C98_value_unique) and it is the one printed (C98_*_value). Violated: powers of bit vectors ignore the exponent (C98_violated_bit_power); vectors of different lengths in one expression write out of bounds (C98_violated_lengths). Missing: other expressions with vectors of different lengths."
  },
  {
   "property": "C99",
   "status": "partial",
   "theorems": [
    "Spffl.Props.Expr99.C99_f2_elt",
    "Spffl.Props.Expr99.C99_f2_round_trip",
    "Spffl.Props.Expr99.C99_f2_zero_denominator",
    "Spffl.Props.Expr99.C99_f2_stream",
    "Spffl.Props.Expr99.C99_violated_f2_stream_end",
    "Spffl.Props.Expr99.C99_f2",
    "Spffl.Props.Expr99.C99_f2_matrix",
    "Spffl.Props.Expr99.C99_f2_value",
    "Spffl.Props.Expr99.C99_violated_f2_garbage",
    "Spffl.Props.Expr99.C99_violated_f2_forever",
    "Spffl.Props.Expr99.C99_fp_elt",
    "Spffl.Props.Expr99.C99_fp_round_trip",
    "Spffl.Props.Expr99.C99_fp_zero_denominator",
    "Spffl.Props.Expr99.C99_fp_stream",
    "Spffl.Props.Expr99.C99_violated_fp_stream_end",
    "Spffl.Props.Expr99.C99_fp_partial",
    "Spffl.Props.Expr99.C99_fp_matrix_partial",
    "Spffl.Props.Expr99.C99_fp_value_partial",
    "Spffl.Props.Expr99.C99_violated_fp_garbage",
    "Spffl.Props.Expr99.C99_violated_fp_forever",
    "Spffl.Props.Expr99.C99_violated_fp_minus",
    "Spffl.Props.Expr99.C99_violated_fp_minus_eq",
    "Spffl.Props.Expr99.C99_f2n_elt",
    "Spffl.Props.Expr99.C99_f2n_round_trip",
    "Spffl.Props.Expr99.C99_f2n_zero_denominator",
    "Spffl.Props.Expr99.C99_f2n_partial",
    "Spffl.Props.Expr99.C99_f2n_matrix_partial",
    "Spffl.Props.Expr99.C99_f2n_value_partial",
    "Spffl.Props.Expr99.C99_violated_f2n_garbage",
    "Spffl.Props.Expr99.C99_violated_f2n_forever",
    "Spffl.Props.Expr99.C99_violated_f2n_minus"
   ],
   "note": "Reading, printing, round trip and zero denominators: all quotients. Calculators: every expression and matrix expression; exact over F2; over Fp without unary minus and kerbas; over F2^n exact without these and right or undefined with them; exponents other than INT_MIN. Violated: texts that do not start with a polynomial are accepted as zero (C99_violated_*_garbage) and make vectors be read for ever (C99_violated_*_forever); minus a polynomial of positive degree is undefined (C99_violated_*_minus), and over Fp minus 1/d is not equal to its own value (C99_violated_fp_minus_eq); the reader for general streams does not fail at their end (C99_violated_*_stream_end)."
  },
  {
   "property": "C100",
   "status": "partial",
   "theorems": [
    "Spffl.Props.Cmd100.C100_gcd",
    "Spffl.Props.Cmd100.C100_violated_gcd_sign",
    "Spffl.Props.Cmd100.C100_ext_gcd_partial",
    "Spffl.Props.Cmd100.C100_violated_ext_zero",
    "Spffl.Props.Cmd100.C100_violated_ext_check",
    "Spffl.Props.Cmd100.C100_lcm_partial",
    "Spffl.Props.Cmd100.C100_violated_lcm",
    "Spffl.Props.Cmd100.C100_totient",
    "Spffl.Props.Cmd100.C100_violated_totient",
    "Spffl.Props.Cmd100.C100_totient_bad",
    "Spffl.Props.Cmd100.C100_test_prime",
    "Spffl.Props.Cmd100.C100_test_prime_negative",
    "Spffl.Props.Cmd100.C100_nth_prime",
    "Spffl.Props.Cmd100.C100_nth_prime_beyond",
    "Spffl.Props.Cmd100.C100_list_partial",
    "Spffl.Props.Cmd100.C100_violated_list",
    "Spffl.Props.Cmd100.C100_factor",
    "Spffl.Props.Cmd100.C100_divisors_partial",
    "Spffl.Props.Cmd100.C100_violated_divisors",
    "Spffl.Props.Cmd100.C100_maximal_divisors",
    "Spffl.Props.Cmd100.C100_bad_argument",
    "Spffl.Props.Cmd100.C100_status",
    "Spffl.Props.Cmd100.C100_violated_status",
    "Spffl.Props.Cmd100.C100_violated_nth_prime_name"
   ],
   "note": "Exact text for all ints in z_totient; for all but INT_MIN in z_gcd, z_test_prime, z_factor and z_divisors -mp; nth_prime for ranges in 1..6542 and beyond it. z_gcd -e and z_lcm for products in range, z_list if the number after the last one is in range, z_divisors within the bounds of C35. Violated: signs of gcd and lcm, overflow of the check after z_gcd -e and a zero argument (C100_violated_gcd_sign, C100_violated_lcm, C100_violated_ext_*), the totient of 1, the divisors of 0, the overflow past the end of a list (C100_violated_totient, C100_violated_divisors, C100_violated_list), status 0 for exceptions and unknown commands (C100_violated_status), nth_prime is registered under another name (C100_violated_nth_prime_name). Standard error and the calculators z_op, z_mat_op (C90, C98) are not part of it."
  },
  {
   "property": "C101",
   "status": "partial",
   "theorems": [
    "Spffl.Props.Cmd101.C101_text",
    "Spffl.Props.Cmd101.C101_deg",
    "Spffl.Props.Cmd101.C101_gcd",
    "Spffl.Props.Cmd101.C101_ext_gcd",
    "Spffl.Props.Cmd101.C101_lcm_partial",
    "Spffl.Props.Cmd101.C101_violated_lcm",
    "Spffl.Props.Cmd101.C101_totient_partial",
    "Spffl.Props.Cmd101.C101_totient_empty",
    "Spffl.Props.Cmd101.C101_test_irr",
    "Spffl.Props.Cmd101.C101_test_prim_partial",
    "Spffl.Props.Cmd101.C101_test_both_partial",
    "Spffl.Props.Cmd101.C101_test_usage",
    "Spffl.Props.Cmd101.C101_find_irr",
    "Spffl.Props.Cmd101.C101_find_prim_partial",
    "Spffl.Props.Cmd101.C101_period_partial",
    "Spffl.Props.Cmd101.C101_factor",
    "Spffl.Props.Cmd101.C101_divisors",
    "Spffl.Props.Cmd101.C101_violated_divisors",
    "Spffl.Props.Cmd101.C101_maximal",
    "Spffl.Props.Cmd101.C101_eval",
    "Spffl.Props.Cmd101.C101_eval_usage",
    "Spffl.Props.Cmd101.C101_comp_mx",
    "Spffl.Props.Cmd101.C101_comp_mx_usage",
    "Spffl.Props.Cmd101.C101_qp_partial",
    "Spffl.Props.Cmd101.C101_list_partial"
   ],
   "note": "Exact for every polynomial: f2_p_deg, f2_p_gcd, f2_p_comp_mx; up to degree INT_MAX: f2_p_test -i, f2_p_find -i, f2_p_factor, f2_p_divisors -mp, f2_p_eval (2147483583); f2_p_divisors for fewer than 2^31 divisors and not for zero (C101_violated_divisors); f2_p_totient for non-zero polynomials with fewer than 2^31 - 1 units; f2_p_lcm without two zeros (C101_violated_lcm); -p and -ip up to degree 30, f2_p_period up to 15, f2_p_list and f2_p_qp up to 30. The random searches are C92 and C79; f2_p_random, the calculator f2_p_op (C96) and standard error are not part of it. The shifts of trim are given any value, as in C53."
  },
  {
   "property": "C102",
   "status": "partial",
   "theorems": [
    "Spffl.Props.Cmd102.C102_text",
    "Spffl.Props.Cmd102.C102_violated_empty",
    "Spffl.Props.Cmd102.C102_usage_prime",
    "Spffl.Props.Cmd102.C102_usage",
    "Spffl.Props.Cmd102.C102_deg",
    "Spffl.Props.Cmd102.C102_gcd",
    "Spffl.Props.Cmd102.C102_ext_gcd_partial",
    "Spffl.Props.Cmd102.C102_violated_ext",
    "Spffl.Props.Cmd102.C102_lcm_partial",
    "Spffl.Props.Cmd102.C102_violated_lcm",
    "Spffl.Props.Cmd102.C102_totient_partial",
    "Spffl.Props.Cmd102.C102_test",
    "Spffl.Props.Cmd102.C102_find",
    "Spffl.Props.Cmd102.C102_factor",
    "Spffl.Props.Cmd102.C102_divisors",
    "Spffl.Props.Cmd102.C102_violated_divisors",
    "Spffl.Props.Cmd102.C102_maximal",
    "Spffl.Props.Cmd102.C102_violated_maximal",
    "Spffl.Props.Cmd102.C102_eval",
    "Spffl.Props.Cmd102.C102_eval_usage",
    "Spffl.Props.Cmd102.C102_comp_mx",
    "Spffl.Props.Cmd102.C102_qp_partial",
    "Spffl.Props.Cmd102.C102_violated_qp",
    "Spffl.Props.Cmd102.C102_list_partial"
   ],
   "note": "Primes up to 46341. Exact for every polynomial: fp_p_deg, fp_p_gcd, fp_p_eval, fp_p_comp_mx; up to degree INT_MAX: fp_p_test, fp_p_find, fp_p_factor, fp_p_divisors -mp; fp_p_divisors for fewer than 2^31 divisors and not for zero; fp_p_gcd -e for a non-zero second argument; fp_p_lcm without two zeros; fp_p_totient for p^(2n) < 2^31; fp_p_list where the numbers of polynomials fit; fp_p_qp for integer coefficients other than -2^31. Violated: an empty argument is undefined for p < 10 (C102_violated_empty); fp_p_gcd -e with a second argument 0 and fp_p_lcm of two zeros throw (C102_violated_ext, C102_violated_lcm); the divisors of 0 (C102_violated_divisors); the maximal divisors of a polynomial that is not monic are not monic, unlike those listed without -mp (C102_violated_maximal); companion matrices of polynomials that are not monic (C102_comp_mx); leading zeros printed by fp_p_qp (C102_violated_qp). fp_p_random, the calculator (C96) and standard error are not part of it."
  },
  {
   "property": "C103",
   "status": "partial",
   "theorems": [
    "Spffl.Props.Cmd103.C103_number",
    "Spffl.Props.Cmd103.C103_text",
    "Spffl.Props.Cmd103.C103_usage_prime",
    "Spffl.Props.Cmd103.C103_usage",
    "Spffl.Props.Cmd103.C103_deg",
    "Spffl.Props.Cmd103.C103_gcd",
    "Spffl.Props.Cmd103.C103_ext_gcd_partial",
    "Spffl.Props.Cmd103.C103_violated_ext",
    "Spffl.Props.Cmd103.C103_lcm_partial",
    "Spffl.Props.Cmd103.C103_violated_lcm",
    "Spffl.Props.Cmd103.C103_totient_partial",
    "Spffl.Props.Cmd103.C103_test",
    "Spffl.Props.Cmd103.C103_find",
    "Spffl.Props.Cmd103.C103_factor",
    "Spffl.Props.Cmd103.C103_divisors",
    "Spffl.Props.Cmd103.C103_violated_divisors",
    "Spffl.Props.Cmd103.C103_maximal",
    "Spffl.Props.Cmd103.C103_violated_maximal",
    "Spffl.Props.Cmd103.C103_eval",
    "Spffl.Props.Cmd103.C103_eval_usage",
    "Spffl.Props.Cmd103.C103_comp_mx",
    "Spffl.Props.Cmd103.C103_qp_partial",
    "Spffl.Props.Cmd103.C103_violated_qp",
    "Spffl.Props.Cmd103.C103_list_partial"
   ],
   "note": "Exact for every irreducible modulus and every polynomial: f2n_p_deg, f2n_p_gcd, f2n_p_eval, f2n_p_comp_mx; for moduli up to degree 30 and polynomials up to degree INT_MAX: f2n_p_test, f2n_p_find, f2n_p_factor, f2n_p_divisors -mp; f2n_p_divisors for fewer than 2^31 divisors and not for zero; f2n_p_gcd -e for a non-zero second argument; f2n_p_lcm without two zeros; f2n_p_totient and f2n_p_list where the numbers fit in an int; f2n_p_qp for integer coefficients other than -2^31. Violated as C102: C103_violated_ext, C103_violated_lcm, C103_violated_divisors, C103_violated_maximal, C103_comp_mx, C103_violated_qp. f2n_p_random, the calculator (C96) and standard error are not part of it."
  },
  {
   "property": "C104",
   "status": "partial",
   "theorems": [
    "Spffl.Props.Cmd104.C104_list",
    "Spffl.Props.Cmd104.C104_ascend",
    "Spffl.Props.Cmd104.C104_violated_list_one",
    "Spffl.Props.Cmd104.C104_usage",
    "Spffl.Props.Cmd104.C104_usage_modulus",
    "Spffl.Props.Cmd104.C104_tbl",
    "Spffl.Props.Cmd104.C104_tbl_log",
    "Spffl.Props.Cmd104.C104_tbl_alog",
    "Spffl.Props.Cmd104.C104_tbl_gen",
    "Spffl.Props.Cmd104.C104_tbl_usage",
    "Spffl.Props.Cmd104.C104_ord",
    "Spffl.Props.Cmd104.C104_max_ord",
    "Spffl.Props.Cmd104.C104_log",
    "Spffl.Props.Cmd104.C104_find_gen",
    "Spffl.Props.Cmd104.C104_violated_find_gen_status",
    "Spffl.Props.Cmd104.C104_orbit_line",
    "Spffl.Props.Cmd104.C104_orbit",
    "Spffl.Props.Cmd104.C104_violated_orbit_coprime",
    "Spffl.Props.Cmd104.C104_violated_orbit_negative",
    "Spffl.Props.Cmd104.C104_violated_orbit_one",
    "Spffl.Props.Cmd104.C104_violated_orbit_overflow"
   ],
   "note": "fp_list for moduli from 2 to INT_MAX; all other commands for moduli from 2 to 46341. Lists, tables and generators are those of the program for every sort that puts residues in ascending order. Violated: fp_list -u 1 and -nu 1 throw (C104_violated_list_one); fp_ord of a non-unit and fp_log of a residue that is no power of the base throw after the label (C104_ord, C104_log); fp_tbl log:g for g that is no generator throws in the middle of the table (C104_tbl_log); fp_find_gen reports a missing generator but the status is 0 (C104_violated_find_gen_status); fp_orbit tests coprimality with the gcd of constant polynomials over F2, so it refuses only even numbers for even moduli and otherwise prints n + 1 lines before it fails (C104_violated_orbit_coprime), prints two lines for negative numbers congruent to 1 (C104_violated_orbit_negative), fails modulo 1 (C104_violated_orbit_one) and overflows from 46342 on (C104_violated_orbit_overflow). fp_random, the matrix commands and the calculator (C90, C96) are not part of it."
  },
  {
   "property": "C105",
   "status": "partial",
   "theorems": [
    "Spffl.Props.Cmd105.C105_list",
    "Spffl.Props.Cmd105.C105_violated_list_31",
    "Spffl.Props.Cmd105.C105_usage",
    "Spffl.Props.Cmd105.C105_usage_modulus",
    "Spffl.Props.Cmd105.C105_tbl",
    "Spffl.Props.Cmd105.C105_tbl_log",
    "Spffl.Props.Cmd105.C105_tbl_alog",
    "Spffl.Props.Cmd105.C105_tbl_usage",
    "Spffl.Props.Cmd105.C105_ord",
    "Spffl.Props.Cmd105.C105_log_partial",
    "Spffl.Props.Cmd105.C105_violated_ord_17",
    "Spffl.Props.Cmd105.C105_tbl_gen",
    "Spffl.Props.Cmd105.C105_find_gen",
    "Spffl.Props.Cmd105.C105_violated_find_gen",
    "Spffl.Props.Cmd105.C105_constant",
    "Spffl.Props.Cmd105.C105_min_pol",
    "Spffl.Props.Cmd105.C105_ch_pol",
    "Spffl.Props.Cmd105.C105_violated_min_pol",
    "Spffl.Props.Cmd105.C105_convert",
    "Spffl.Props.Cmd105.C105_violated_log"
   ],
   "note": "f2_pm_list and f2_pm_log for moduli of degree 1 to 30; f2_pm_tbl, f2_pm_ord and f2_pm_find_gen for degree 1 to 15, reducible ones included; f2_pm_min_pol and f2_pm_ch_pol for irreducible moduli; f2_pm_convert for irreducible moduli of degree up to 15 and 30. For every sort that puts residues in ascending order. Violated: listing all residues throws for degree 31 and is undefined above (C105_violated_list_31); the order is undefined for irreducible moduli of degree 17 (C105_violated_ord_17); the search for a generator throws when it meets a residue that is no unit, for instance for all multiples of x (C105_find_gen, C105_violated_find_gen), so the message for missing generators is never printed; minimal and characteristic polynomial loop forever for a reducible modulus (C105_violated_min_pol); logarithms are not reduced modulo the order (C105_violated_log); the bound proved for them is 2^31 (C105_log_partial); orders of non-units and logarithms of other residues throw after the label. f2_pm_random, the matrix commands and the calculator (C94) are not part of it."
  },
  {
   "property": "C106",
   "status": "partial",
   "theorems": [
    "Spffl.Props.Cmd106.C106_low",
    "Spffl.Props.Cmd106.C106_fp_text",
    "Spffl.Props.Cmd106.C106_violated_fp_commas",
    "Spffl.Props.Cmd106.C106_fp_zero",
    "Spffl.Props.Cmd106.C106_fp_list_all_partial",
    "Spffl.Props.Cmd106.C106_fp_list_units_partial",
    "Spffl.Props.Cmd106.C106_fp_tbl_partial",
    "Spffl.Props.Cmd106.C106_fp_tbl_usage",
    "Spffl.Props.Cmd106.C106_fp_ord",
    "Spffl.Props.Cmd106.C106_violated_fp_ord",
    "Spffl.Props.Cmd106.C106_fp_pol_partial",
    "Spffl.Props.Cmd106.C106_violated_fp_hang",
    "Spffl.Props.Cmd106.C106_fp_usage",
    "Spffl.Props.Cmd106.C106_fp_usage_modulus",
    "Spffl.Props.Cmd106.C106_violated_null_usage",
    "Spffl.Props.Cmd106.C106_f2n_text",
    "Spffl.Props.Cmd106.C106_violated_f2n_colons",
    "Spffl.Props.Cmd106.C106_f2n_zero",
    "Spffl.Props.Cmd106.C106_f2n_list_all_partial",
    "Spffl.Props.Cmd106.C106_f2n_list_units_partial",
    "Spffl.Props.Cmd106.C106_f2n_tbl_partial",
    "Spffl.Props.Cmd106.C106_f2n_alog_partial",
    "Spffl.Props.Cmd106.C106_f2n_ord_partial",
    "Spffl.Props.Cmd106.C106_f2n_find_gen_partial",
    "Spffl.Props.Cmd106.C106_violated_f2n_find_gen",
    "Spffl.Props.Cmd106.C106_f2n_log_partial",
    "Spffl.Props.Cmd106.C106_violated_f2n_log",
    "Spffl.Props.Cmd106.C106_f2n_log_nonunit",
    "Spffl.Props.Cmd106.C106_f2n_tbl_log_partial",
    "Spffl.Props.Cmd106.C106_f2n_pol_partial",
    "Spffl.Props.Cmd106.C106_violated_f2n_hang",
    "Spffl.Props.Cmd106.C106_f2n_usage",
    "Spffl.Props.Cmd106.C106_f2n_usage_modulus"
   ],
   "note": "p up to 46341, F2^n with n up to 30. Listings and tables for as many residues as in C70 (p^(2 deg) and 2^(2 n deg) below 2^31 for units); fp_pm_ord for orders that fit in an int, in as many rounds of its loop; f2n_pm_ord and f2n_pm_find_gen in the range of C59 and C60, reducible moduli included; minimal and characteristic polynomials for irreducible moduli. For every sort that puts residues in ascending order. Violated: a residue written with nothing but commas or colons is undefined behaviour (C106_violated_fp_commas, C106_violated_f2n_colons); orders beyond an int overflow (C106_violated_fp_ord); minimal and characteristic polynomials of a nilpotent residue other than 0 never end (C106_violated_fp_hang, C106_violated_f2n_hang); fp_pm_mat_op and fp_pm_vecop call a null pointer where they should print their usage (C106_violated_null_usage); f2n_pm_find_gen throws if a non-unit comes before all generators (C106_violated_f2n_find_gen); f2n_pm_log and f2n_pm_tbl log print lines about the work of f2n_polymod_log (C106_f2n_log_partial, C106_f2n_tbl_log_partial), and throw for powers with large exponents (C106_violated_f2n_log); fp_pm_tbl has no tables of logarithms and powers (C106_fp_tbl_usage). fp_pm_random, f2n_pm_random, the calculators (C94) and the matrix commands are not part of it."
  },
  {
   "property": "C107",
   "status": "partial",
   "theorems": [
    "Spffl.Props.Cmd107.C107_holds",
    "Spffl.Props.Cmd107.C107_bad_row",
    "Spffl.Props.Cmd107.C107_f2_ord",
    "Spffl.Props.Cmd107.C107_violated_f2_ord",
    "Spffl.Props.Cmd107.C107_fp_ord",
    "Spffl.Props.Cmd107.C107_violated_fp_ord",
    "Spffl.Props.Cmd107.C107_fpn_ord",
    "Spffl.Props.Cmd107.C107_violated_fpn_ord",
    "Spffl.Props.Cmd107.C107_f2n_ord",
    "Spffl.Props.Cmd107.C107_violated_f2n_ord",
    "Spffl.Props.Cmd107.C107_usage",
    "Spffl.Props.Cmd107.C107_violated_order",
    "Spffl.Props.Cmd107.C107_violated_residues",
    "Spffl.Props.Cmd107.C107_f2_ch_pol",
    "Spffl.Props.Cmd107.C107_fp_ch_pol",
    "Spffl.Props.Cmd107.C107_f2n_ch_pol",
    "Spffl.Props.Cmd107.C107_ch_pol_usage",
    "Spffl.Props.Cmd107.C107_violated_last_line",
    "Spffl.Props.Cmd107.C107_solve_partial",
    "Spffl.Props.Cmd107.C107_solve_missing",
    "Spffl.Props.Cmd107.C107_violated_length"
   ],
   "note": "p up to 46341, elements written as in C94, orders up to 2147483647 in as many rounds of the loop; f2_pm_mat_diagonalizable is C113. Violated: the order commands do not look at the stream: with no rows or a bad first row the behaviour is undefined, with rows of different lengths, a bad later row or a matrix that is not square there is an uncaught exception (C107_violated_f2_ord, C107_violated_fp_ord, C107_violated_f2n_ord, C107_violated_fpn_ord); orders beyond int overflow the counter, and there are such matrices (C107_violated_order); the last line is dropped if it has no newline (C107_violated_last_line); negative entries and composite moduli (C107_violated_residues); a right-hand side of another length (C107_violated_length)."
  },
  {
   "property": "C108",
   "status": "partial",
   "theorems": [
    "Spffl.Props.Cmd108.C108_gcd",
    "Spffl.Props.Cmd108.C108_ext_gcd_partial",
    "Spffl.Props.Cmd108.C108_violated_ext_zero",
    "Spffl.Props.Cmd108.C108_violated_commas",
    "Spffl.Props.Cmd108.C108_qp_partial",
    "Spffl.Props.Cmd108.C108_usage",
    "Spffl.Props.Cmd108.C108_violated_ext",
    "Spffl.Props.Cmd108.C108_cyclotomic_partial"
   ],
   "note": "p up to 46341, irreducible moduli; for fpn_p_gcd -e and for q_cyclotomic beyond 33 and the prime powers the statement is that what is printed is right or the behaviour is undefined. Violated: fpn_p_gcd -e negates coefficients of positive degree, which is undefined (C108_violated_ext); it throws if the second polynomial is zero (C108_violated_ext_zero); commas alone are undefined behaviour (C108_violated_commas)."
  },
  {
   "property": "C109",
   "status": "partial",
   "theorems": [
    "Spffl.Props.Cmd109.C109_only",
    "Spffl.Props.Cmd109.C109_violated_extra",
    "Spffl.Props.Cmd109.C109_z_op_partial",
    "Spffl.Props.Cmd109.C109_q_op_partial",
    "Spffl.Props.Cmd109.C109_f2_op",
    "Spffl.Props.Cmd109.C109_fp_op_partial",
    "Spffl.Props.Cmd109.C109_fp_p_op_partial",
    "Spffl.Props.Cmd109.C109_fp_pm_op_partial",
    "Spffl.Props.Cmd109.C109_fp_mat_op",
    "Spffl.Props.Cmd109.C109_fp_vec_op",
    "Spffl.Props.Cmd109.C109_f2_p_op_partial",
    "Spffl.Props.Cmd109.C109_f2_pm_op",
    "Spffl.Props.Cmd109.C109_f2_mat_op",
    "Spffl.Props.Cmd109.C109_f2_vec_op_partial",
    "Spffl.Props.Cmd109.C109_f2n_p_op_partial",
    "Spffl.Props.Cmd109.C109_f2n_pm_op_partial",
    "Spffl.Props.Cmd109.C109_f2_pm_mat_op",
    "Spffl.Props.Cmd109.C109_f2_pm_vec_op",
    "Spffl.Props.Cmd109.C109_fpn_p_op_partial",
    "Spffl.Props.Cmd109.C109_fpn_pm_op_partial",
    "Spffl.Props.Cmd109.C109_fp_pm_mat_op_partial",
    "Spffl.Props.Cmd109.C109_fp_pm_vecop_partial",
    "Spffl.Props.Cmd109.C109_q_mat_op_partial",
    "Spffl.Props.Cmd109.C109_q_vec_op_partial",
    "Spffl.Props.Cmd109.C109_usage",
    "Spffl.Props.Cmd109.C109_empty",
    "Spffl.Props.Cmd109.C109_violated_null_usage",
    "Spffl.Props.Cmd109.C109_f2_pr_op",
    "Spffl.Props.Cmd109.C109_f2_pr_mat_op",
    "Spffl.Props.Cmd109.C109_fp_pr_op_partial",
    "Spffl.Props.Cmd109.C109_fp_pr_mat_op_partial",
    "Spffl.Props.Cmd109.C109_f2n_pr_op_partial",
    "Spffl.Props.Cmd109.C109_f2n_pr_mat_op_partial",
    "Spffl.Props.Cmd109.C109_rat_usage"
   ],
   "note": "the ranges and exceptions of C90, C96, C98 and C99 (for q_op, polynomials and their residues the value is printed or the behaviour is undefined where a coefficient is negated or an int overflows); z_op without powers and comparisons; what follows the expression is nothing or begins with a closing bracket, and C109_only says what a calculator can have printed for any arguments. Violated: an expression followed by a closing bracket and anything is printed before the error, with status 0 (C109_violated_extra); fp_pm_mat_op and fp_pm_vecop call a null usage function (C109_violated_null_usage)."
  },
  {
   "property": "C110",
   "status": "partial",
   "theorems": [
    "Spffl.Props.Cmd110.C110_names",
    "Spffl.Props.Cmd110.C110_commands",
    "Spffl.Props.Cmd110.C110_braces",
    "Spffl.Props.Cmd110.C110_unique",
    "Spffl.Props.Cmd110.C110_plain",
    "Spffl.Props.Cmd110.C110_only",
    "Spffl.Props.Cmd110.C110_unbalanced",
    "Spffl.Props.Cmd110.C110_one",
    "Spffl.Props.Cmd110.C110_number",
    "Spffl.Props.Cmd110.C110_gcd",
    "Spffl.Props.Cmd110.C110_totient_gcd",
    "Spffl.Props.Cmd110.C110_violated_unknown",
    "Spffl.Props.Cmd110.C110_violated_nth_prime",
    "Spffl.Props.Cmd110.C110_violated_inner",
    "Spffl.Props.Cmd110.C110_violated_error",
    "Spffl.Props.Cmd110.C110_violated_shell",
    "Spffl.Props.Cmd110.C110_list"
   ],
   "note": "the shell is modelled for command lines of plain words (letters, digits, _ - + . , : / % ^ @ and lone braces) and arbitrary otherwise; the output of a command in braces has no line of more than 4095 bytes (C72); all 136 commands are modelled. Violated: an unknown name gives status 0 (C110_violated_unknown), inside braces it vanishes with its arguments (C110_violated_inner); what a command in braces printed before an exception is used (C110_violated_error); nth_prime is not reachable by its name (C110_violated_nth_prime); parentheses in braces reach the shell (C110_violated_shell)."
  },
  {
   "property": "C111",
   "status": "partial",
   "theorems": [
    "Spffl.Props.Cmd111.C111_f2",
    "Spffl.Props.Cmd111.C111_f2_mat",
    "Spffl.Props.Cmd111.C111_fp",
    "Spffl.Props.Cmd111.C111_fp_mat",
    "Spffl.Props.Cmd111.C111_f2_p",
    "Spffl.Props.Cmd111.C111_f2_pm",
    "Spffl.Props.Cmd111.C111_f2_pm_mat",
    "Spffl.Props.Cmd111.C111_f2_pr",
    "Spffl.Props.Cmd111.C111_f2_pr_mat",
    "Spffl.Props.Cmd111.C111_fp_p",
    "Spffl.Props.Cmd111.C111_fp_pm_partial",
    "Spffl.Props.Cmd111.C111_fp_pm_mat_partial",
    "Spffl.Props.Cmd111.C111_f2n_p_partial",
    "Spffl.Props.Cmd111.C111_f2n_pm_partial",
    "Spffl.Props.Cmd111.C111_f2n_pm_mat_partial",
    "Spffl.Props.Cmd111.C111_usage"
   ],
   "note": "for every source of words; the seeding is not modelled. fp_pm_random and fp_pm_mat_random: p prime up to 46341; f2n commands: irreducible modulus of the field. Commands over F2, F2[x], F2[x]/m, F2(x), Fp and Fp[x]: without these restrictions."
  },
  {
   "property": "C112",
   "status": "partial",
   "theorems": [
    "Spffl.Props.Cmd112.C112_violated_det",
    "Spffl.Props.Cmd112.C112_z_mat_op_partial",
    "Spffl.Props.Cmd112.C112_f2_p_mat_op_partial",
    "Spffl.Props.Cmd112.C112_fp_p_mat_op",
    "Spffl.Props.Cmd112.C112_f2n_p_mat_op",
    "Spffl.Props.Cmd112.C112_f2n_pm_mat_op_partial",
    "Spffl.Props.Cmd112.C112_f2n_pm_vec_op_partial",
    "Spffl.Props.Cmd112.C112_fpn_p_mat_op_partial",
    "Spffl.Props.Cmd112.C112_fpn_pm_mat_op_partial",
    "Spffl.Props.Cmd112.C112_usage"
   ],
   "note": "violated for determinants that are no units (printed as 0: C112_violated_det). Inverses, ranks and powers that are not positive are covered only where all entries are constants. z_mat_op: where an int overflows or a pivot that is not the last divides by 0 the behaviour is undefined; polynomials over F2, F2^n and Fp^n: undefined outside the sizes of C94; polynomials over Fp and F2^n: undefined only with unary minus or kerbas."
  },
  {
   "property": "C113",
   "status": "partial",
   "theorems": [
    "Spffl.Props.Cmd113.C113_diagonalizable_partial",
    "Spffl.Props.Cmd113.C113_diag_nonsquare",
    "Spffl.Props.Cmd113.C113_diag_usage",
    "Spffl.Props.Cmd113.C113_violated_31",
    "Spffl.Props.Cmd113.C113_violated_32",
    "Spffl.Props.Cmd113.C113_q_p_op_partial",
    "Spffl.Props.Cmd113.C113_q_p_op_exact",
    "Spffl.Props.Cmd113.C113_violated_minus",
    "Spffl.Props.Cmd113.C113_violated_ignored",
    "Spffl.Props.Cmd113.C113_violated_commas"
   ],
   "note": "q_p_op: exact for sums, differences and products in range (C113_q_p_op_exact); for the other operators the behaviour may be undefined, as it is on overflow. f2_pm_mat_diagonalizable: splitting fields of degree up to 30. Violated: over F_{2^31} the command throws after the characteristic polynomial and over F_{2^32} it is undefined (C113_violated_31, C113_violated_32); unary minus of a polynomial of positive degree is undefined (C113_violated_minus); what follows the digits and commas of an argument of q_p_op is ignored, so 1/2 is 1 (C113_violated_ignored); an argument of commas frees memory twice (C113_violated_commas)."
  },
  {
   "property": "C114",
   "status": "partial",
   "theorems": [
    "Spffl.Props.FacStores.C114_factor_lists",
    "Spffl.Props.FacStores.C114_int",
    "Spffl.Props.FacStores.C114_f2_poly",
    "Spffl.Props.FacStores.C114_get_ith",
    "Spffl.Props.FacStores.C114_list_model",
    "Spffl.Props.FacStores.C114_violated_leak",
    "Spffl.Props.FacStores.C114_assign_body",
    "Spffl.Props.FacStores.C114_violated_self_assign"
   ],
   "note": "Contents, order, independence and memory safety for all programs whose counts stay in the range of int (C114_factor_lists), for ints and polynomials over F2 without further assumptions (C114_int, C114_f2_poly); C114_list_model shows that the list model used for the factorization functions leaves nothing out. Violated: growing leaves the old array allocated for good (C114_violated_leak); operator= lacks its return statement, and self-assignment loses the contents (C114_violated_self_assign)."
  },
  {
   "property": "C115",
   "status": "proved",
   "theorems": [
    "Spffl.Props.PolyBases.C115_from_base_rep",
    "Spffl.Props.PolyBases.C115_digits_back",
    "Spffl.Props.PolyBases.C115_injective",
    "Spffl.Props.PolyBases.C115_negative",
    "Spffl.Props.PolyBases.C115_negative_modulus",
    "Spffl.Props.PolyBases.C115_violated_modulus",
    "Spffl.Props.PolyBases.C115_zero"
   ],
   "note": "fp_poly_t; the f2n and fpn versions always throw. Moduli 0, 1 and -1 are undefined behaviour for every int but 0 (C115_violated_modulus: division by zero, or a count that overflows), moduli below -1 are refused with an exception (C115_negative_modulus)."
  },
  {
   "property": "C116",
   "status": "partial",
   "theorems": [
    "Spffl.Props.PolyStores.C116_polynomials",
    "Spffl.Props.PolyStores.C116_fp",
    "Spffl.Props.PolyStores.C116_f2n",
    "Spffl.Props.PolyStores.C116_q_partial",
    "Spffl.Props.PolyStores.C116_fpn_partial",
    "Spffl.Props.PolyStores.C116_same_outcome",
    "Spffl.Props.PolyStores.C116_violated_leak",
    "Spffl.Props.PolyStores.C116_violated_self_assign",
    "Spffl.Props.PolyStores.C116_violated_quotient_in_dividend",
    "Spffl.Props.PolyStores.C116_violated_remainder_in_dividend"
   ],
   "note": "Contents, separateness and memory safety for all programs over the integers modulo m and over F2[x]/m (C116_fp, C116_f2n); over Q unless an int overflows, over Fp[x]/M unless a residue of degree 1 or more is negated (C116_q_partial, C116_fpn_partial). Not covered by these: negating a non-constant polynomial (undefined, see C37) and I/O; a coefficient is a value, its own arrays are not counted. C116_same_outcome compares the arrays with the value model for all programs. Violated: every sum, difference, product, negation and proper division leaves one array allocated for good (C116_violated_leak); self-assignment loses the coefficients (C116_violated_self_assign); dividing by a polynomial of larger degree with a result in the dividend loses the remainder (C116_violated_quotient_in_dividend, C116_violated_remainder_in_dividend)."
  },
  {
   "property": "C117",
   "status": "partial",
   "theorems": [
    "Spffl.Props.Elliptics.C117_sum",
    "Spffl.Props.Elliptics.C117_main_partial",
    "Spffl.Props.Elliptics.C117_default_curve",
    "Spffl.Props.Elliptics.C117_violated_infinity",
    "Spffl.Props.Elliptics.C117_violated_sign",
    "Spffl.Props.Elliptics.C117_solutions",
    "Spffl.Props.Elliptics.C117_points"
   ],
   "note": "The formulas (C117_sum) and the list (C117_solutions, C117_points) are right. The program around the formulas is not: check_point has the signs of a and b reversed and ignores z, so a sum is printed only if both points and the sum pass the wrong check (C117_main_partial is exact; C117_violated_sign, C117_violated_infinity). Right for the curve y^2 = x^3 + 1 of tbl.sh (C117_default_curve). Reading the arguments is not modelled."
  },
  {
   "property": "C118",
   "status": "partial",
   "theorems": [
    "Spffl.Props.Elliptics.C118_check",
    "Spffl.Props.Elliptics.C118_main_partial",
    "Spffl.Props.Elliptics.C118_violated_order_two",
    "Spffl.Props.Elliptics.C118_solutions",
    "Spffl.Props.Elliptics.C118_points"
   ],
   "note": "Right for all pairs of points (C118_main_partial) except a point of order two added to itself, where the program divides by zero and ends with an exception (C118_violated_order_two). Reading the arguments is not modelled."
  },
  {
   "property": "C119",
   "status": "partial",
   "theorems": [
    "Spffl.Props.MvPolys.C119_intmod",
    "Spffl.Props.MvPolys.C119_constructors",
    "Spffl.Props.MvPolys.C119_violated_three_terms",
    "Spffl.Props.MvPolys.C119_violated_zero_terms",
    "Spffl.Props.MvPolys.C119_product",
    "Spffl.Props.MvPolys.C119_f2mod",
    "Spffl.Props.MvPolys.C119_fpmod_partial",
    "Spffl.Props.MvPolys.C119_q_partial"
   ],
   "note": "Sums, differences, negatives and products are right as polynomials (C119_intmod, C119_f2mod; C119_fpmod_partial unless the negative of a non-constant residue is taken, C119_q_partial unless an int overflows). Violated: products keep terms with the coefficient 0, which cannot be printed (C119_violated_zero_terms; C119_product says exactly when there are none); the constructor for three terms forgets the third (C119_violated_three_terms). The arrays behind the list of terms, the scanner and the printed text are not modelled."
  },
  {
   "property": "C120",
   "status": "partial",
   "theorems": [
    "Spffl.Props.MvPolys.C120_value",
    "Spffl.Props.MvPolys.C120_derivative",
    "Spffl.Props.MvPolys.C120_degree",
    "Spffl.Props.MvPolys.C120_homogenize",
    "Spffl.Props.MvPolys.C120_homogenize_full",
    "Spffl.Props.MvPolys.C120_violated_degree",
    "Spffl.Props.MvPolys.C120_f2mod_value"
   ],
   "note": "Values and derivatives for all polynomials (C120_value, C120_f2mod_value, C120_derivative; values with exponents that are not negative, derivatives modulo m with m times the largest exponent within int). Degree and homogeneity for polynomials without zero terms (C120_degree); the degree of a product is found too large where the leading terms cancel (C120_violated_degree). homogenize for fewer than 8 variables (C120_homogenize); with 8 it ends the program (C120_homogenize_full)."
  },
  {
   "property": "C121",
   "status": "partial",
   "theorems": [
    "Spffl.Props.Charts.C121_moebius",
    "Spffl.Props.Charts.C121_violated_moebius",
    "Spffl.Props.Charts.C121_count",
    "Spffl.Props.Charts.C121_count_dvd",
    "Spffl.Props.Charts.C121_rows",
    "Spffl.Props.Charts.C121_violated_range"
   ],
   "note": "C121_moebius, C121_count, C121_count_dvd and C121_rows for degrees 1 to 30. calc_moebius(0) is 1, degree 0 divides by zero and degree 31 overflows (C121_violated_moebius, C121_violated_range)."
  },
  {
   "property": "C122",
   "status": "partial",
   "theorems": [
    "Spffl.Props.Charts.C122_list",
    "Spffl.Props.Charts.C122_list_partial",
    "Spffl.Props.Charts.C122_violated_30"
   ],
   "note": "C122_list for degrees 1 to 29 with any mask in trim of the bit vectors, C122_list_partial with the mask as the program computes it, read as in C53; degree 30 overflows (C122_violated_30)."
  },
  {
   "property": "C123",
   "status": "partial",
   "theorems": [
    "Spffl.Props.TM.C123_mult_own",
    "Spffl.Props.TM.C123_div_own",
    "Spffl.Props.TM.C123_product",
    "Spffl.Props.TM.C123_product_len",
    "Spffl.Props.TM.C123_find_row",
    "Spffl.Props.TM.C123_find_row_len",
    "Spffl.Props.TM.C123_eq_scalar",
    "Spffl.Props.TM.C123_mult_own_fp",
    "Spffl.Props.TM.C123_violated_mult_own",
    "Spffl.Props.TM.C123_violated_div_own",
    "Spffl.Props.TM.C123_own_last",
    "Spffl.Props.TM.C123_find_own_row"
   ],
   "note": "Products, find_row and the comparison with a scalar in full for every element type (EltRef); scaling by an own element is right only for the last position or where later elements do not matter: C123_mult_own and C123_div_own give the exact results, C123_violated_mult_own and C123_violated_div_own refute the claim for every other position modulo a prime."
  },
  {
   "property": "C124",
   "status": "partial",
   "theorems": [
    "Spffl.Props.Check.C124_tmatrix",
    "Spffl.Props.Check.C124_fp",
    "Spffl.Props.Check.C124_bit_inverse",
    "Spffl.Props.Check.C124_bit_kernel_computes",
    "Spffl.Props.Check.C124_bit_kernel_partial",
    "Spffl.Props.Check.C124_violated_kernel",
    "Spffl.Props.Check.C124_bit_eq_computes",
    "Spffl.Props.Check.C124_violated_eq",
    "Spffl.Props.Check.C124_bit_sizes",
    "Spffl.Props.Check.C124_bit_sub"
   ],
   "note": "Both checks of tmatrix in full for every element type over a field (EltRef), check_inverse of bit matrices in full; check_kernel_basis and == of bit matrices do not look at the last word of a row (C124_bit_kernel_computes, C124_bit_eq_computes), so with up to 64 rows or columns they accept everything (C124_violated_kernel, C124_violated_eq)."
  },
  {
   "property": "C125",
   "status": "partial",
   "theorems": [
    "Spffl.Props.Crt.C125_table_partial",
    "Spffl.Props.Crt.C125_pairs",
    "Spffl.Props.Crt.C125_violated_overflow",
    "Spffl.Props.Crt.C125_not_coprime",
    "Spffl.Props.Crt.C125_violated_one"
   ],
   "note": "C125_table_partial and C125_pairs for coprime moduli from 2 to 46341 with a product up to 2^30; above that the table ends in undefined behaviour (C125_violated_overflow), and the modulus 1 is refused (C125_violated_one); larger moduli with small products (one modulus above 46341) are not covered, their reciprocals may overflow (C13)."
  },
  {
   "property": "C126",
   "status": "proved",
   "theorems": [
    "Spffl.Props.PolyMat.C126_value",
    "Spffl.Props.PolyMat.C126_not_square",
    "Spffl.Props.PolyMat.C126_prints",
    "Spffl.Props.PolyMat.C126_program",
    "Spffl.Props.PolyMat.C126_charpoly"
   ],
   "note": "C126_value and C126_prints for every coefficient type over a field (CoefRef), C126_program and C126_charpoly for the types of the program with an irreducible modulus, C126_not_square; reading the arguments is C93 and C94."
  },
  {
   "property": "C127",
   "status": "partial",
   "theorems": [
    "Spffl.Props.FrobOrbit.C127_frob",
    "Spffl.Props.FrobOrbit.C127_frobit",
    "Spffl.Props.FrobOrbit.C127_refused",
    "Spffl.Props.FrobOrbit.C127_orbit",
    "Spffl.Props.FrobOrbit.C127_violated_reducible"
   ],
   "note": "C127_frob, C127_frobit for every modulus, C127_orbit for irreducible moduli, C127_refused; for reducible reductors, which the user may give, the rows need not be an orbit (C127_violated_reducible: modulo x^n the last two rows are equal)."
  },
  {
   "property": "C128",
   "status": "partial",
   "theorems": [
    "Spffl.Props.ZeroCount.C128_embed",
    "Spffl.Props.ZeroCount.C128_affine_partial",
    "Spffl.Props.ZeroCount.C128_projective_partial",
    "Spffl.Props.ZeroCount.C128_violated_homogeneous"
   ],
   "note": "C128_embed; C128_affine_partial for any reductor other than 0 within the sizes where int_power does not overflow; C128_projective_partial for polynomials that are not homogeneous, in fewer than 8 variables, and irreducible reductors. For homogeneous polynomials the program ends before it prints (C128_violated_homogeneous). Reading the polynomial is not modelled."
  }
 ]
}