# SPFFL in Lean: design of the model

Subject: `johnkerl/spffl` at the pinned commit in `/repo` (C++20 per `CMakeLists.txt`; `int` is 32 bits,
`uint64_t` words, as on every platform the project builds on).  The code is read as text, never built.

## 1. Shape of the model

* `Verif/Base/Res.lean` - outcome monad.  Every modelled C++ call returns one of
  `ok v` (normal return), `throw` (a C++ exception leaves the call), `ub` (the call executes undefined
  behaviour: signed overflow, division by zero, out-of-range shift, out-of-bounds access, reading an
  indeterminate value) or `timeout` (a fuel-indexed loop ran out of fuel; "diverges" is stated as
  "`timeout` for every fuel", "terminates" as "`ok` for every sufficiently large fuel").
* 32-bit `int` is modelled as `Int` plus a range check after every arithmetic operation (`ub` on overflow);
  64-bit words as `BitVec 64`; `unsigned` as `BitVec 32` or `Nat` with explicit wrap.
* Loops: `for` loops are the combinators `forUp`/`forDown`, in-place array updates are `List.set` behind a
  bounds check; proofs use invariant rules for those combinators.
* A class template (`tmatrix<E>`, `tvector<E>`, `tfacinfo<E>`) and the four copy-pasted polynomial classes
  (`fp_poly_t`, `f2n_poly_t`, `fpn_poly_t`, `q_poly_t`) are modelled once over an abstract element type given
  by its `Res`-valued operations, plus a refinement predicate tying those operations to a Mathlib
  commutative ring or field; the concrete element classes are then shown to satisfy that predicate.
* Specifications are Mathlib objects: `Nat.gcd`, `Nat.totient`, `Nat.Prime`, `ZMod m`,
  `Polynomial (ZMod 2)`, `Matrix.det`, `Matrix.rank`, `orderOf`, `Irreducible`, ...  They never mention the
  model's helpers.

Directory layout (`lean/Verif/`): `Base/` (outcomes, loops), `Model/` (definitions only, each citing
`/repo` file:lines), `Proof/` (helper lemmas), `Props/` (the property theorems, one file per area, each
theorem followed by an `example` that its hypotheses are met by a non-trivial case).

## 2. Property table

See `properties.jsonl` for full statements and `MANIFEST.json` for status.  How each is expressed:

| Prop | Modelled code | Proof method |
|---|---|---|
| C01-C03 | int_gcd.cpp, every line, 32-bit with ub | strong induction on the second argument; Bezout-coefficient bounds as loop invariant |
| C04 | int_power.cpp | loop invariant rv*b2^e; exact no-overflow condition; witness for the spurious overflow |
| C05 | int_sqrt.cpp | binary search invariant lower^2 <= n < upper^2 |
| C06 | int_totient.cpp | loop invariant, to `Nat.totient`; n = 1 is a witness of failure |
| C07, C08 | is_prime.cpp and the whole primes_16 table | whole-table kernel check lifted to `Nat.Prime`, then `minFac` argument |
| C09, C10, C73 | log2.cpp, log10.cpp, count_bits.cpp | case split / bit lemmas to `Nat.log`; |
| C11 | int_factor.cpp + tfacinfo | invariant over the prime table |
| C12-C16 | intmod_t.cpp | refinement to `ZMod m`; overflow thresholds; static cache as explicit state |
| C17 | intrat_t.cpp | refinement to `Rat` under explicit no-overflow guard |
| C18-C29 | f2_poly_t.cpp at the 64-bit word level | abstraction words -> Nat -> `Polynomial (ZMod 2)`, loop invariants |
| C30-C32 | f2_polymod_t.cpp | refinement to `AdjoinRoot`/quotient, from C18-C22 |
| C33-C35 | tfacinfo.h | sorted-list invariant; multiset product; mixed-radix enumeration |
| C36-C41 | fp_poly_t.cpp etc., generic | refinement to `Polynomial R` |
| C42-C48 | tmatrix.h, tvector.h, generic | refinement to `Matrix`, row operations as left multiplication by invertible matrices |
| C49-C52 | tvector.h / bit_vector_t / bit_matrix_t storage | heap-size model, witnesses for the overflow; F2 semantics |
| C53-C55, C58 | f2_poly_factor.cpp, f2_poly_totient.cpp | Berlekamp subalgebra theory over `GF(q)`, CRT; strong induction on degree |
| C56, C57, C76-C78 | fp_poly_factor.cpp, f2n_poly_factor.cpp and totients, one generic model | the same over any finite field, instantiated at `ZMod p` and `AdjoinRoot m` |
| C59-C62, C79 | units/*.cpp | group theory (`orderOf`), divisors, baby-step giant-step |
| C63-C65, C80-C86 | linalg/*.cpp, the `ed_*` members of tmatrix.h | companion matrices; elimination over a domain tracked in its fraction field; Frobenius orbit; homomorphisms of finite fields determined by a generator |
| C66, C67 | bitrand/psdes.cpp | Feistel inversion; counter period |
| C68 | random/*.cpp; the sequence of words is a parameter | coefficients as functions of the words; a polynomial is determined by its residue and leading coefficient |
| C92 | f2_poly_factor.cpp, fp_poly_factor.cpp, f2n_poly_factor.cpp, the random searches; the number of rounds is a parameter | one round from C68 and C54/C76; first acceptable draw by induction on the rounds |
| C93 | printing, from_string and stream readers of fp_poly_t, q_poly_t, f2n_poly_t, fpn_poly_t and of the residue types; texts are lists of characters, a stream is its unread characters with the end and failure bits | one coefficient at a time by C28/C91, then Horner's rule over the list of coefficients; printed texts split at their separators; streams by induction on the coefficients |
| C94 | printing, operator>> and bracket_in of tvector and tmatrix over any element type, with the element types as instances; the line buffer with the position `pline` has reached in it | one element at a time (`EltSpec`), induction on elements and on lines |
| C95 | `f2_polymod_matrix_is_diagonalizable` (f2_polymod_linear_algebra.cpp:83-255) on top of the models of C80, C57, C55, C60, C86, C43; what it prints is C113 | eigenspaces: independence and dimension count for one direction, a squarefree annihilating polynomial for independence of the extension field; splitting degree by embeddings of finite fields |
| C96 | `cmd_line_parse` with what it prints, and the eight `*_op_main` functions for polynomial types, moduli given as objects (Model/ExprInst2.lean) | the evaluator theorem of C90 for commutative rings with partial division, instantiated by the arithmetic of C24, C30, C36, C38 and the readers and printers of C94; unary minus replaced for expressions that do not use it |
| C97 | `operator<<`, `operator>>`, `from_string` of `bit_t`, `bit_vector_t` (both readers, `sqzout`, `crout`) and `bit_matrix_t`, with the growth of the arrays and unwritten memory (Model/BitText.lean) | texts described by integer sequences and lines (`IntSeq`, `BitLine`, `BlankLine`), uniquely; loop invariants on what the object holds so far; a converse for every text |
| C98 | `matOp`, `vecOp` for the five element types, with `check_inverse`, `check_kernel_basis`, `load_from_file`, `tvector::exp` and the `bit_t` reader as an element (Model/ExprInst3.lean); on top of the evaluator of C90, the containers of C42–C45 and the texts of C94 | meaning of expressions as a relation (`MDen`, matrices of any size) and a partial function (`vden`); `Out`/`Right` carried through the evaluator; literals described as texts (`MLit`, `VLit`); uniqueness of values from that of reduced echelon forms (Base/EchelonUnique.lean, Proof/ExprMatDet.lean) |
| C99 | `PRat.extract`, `extractS`, `ofString`, `shown` for the three `*_polyrat_t` classes, their operators as elements of the evaluators, and the six `*_op` calculators (Model/PolyRatText.lean), on top of C75, C87, C90, C93, C94 | the text operators of the polynomials enter through one interface (`TextRef`), proved for each class; quotients are `RatFunc` of Mathlib, the calculators then follow from the general theorems of C96 and C98 |
| C100 | the eight `z_*` handlers other than the calculators, `sscanf` with `%d` and `%d-%d`, `operator<<` of tfacinfo, the lookup and exit status of spiff_main.cpp (Model/Cmd.lean); standard error is not modelled | a monad of printed text with three ends (value, `exit(1)`, exception) and rules for it (Proof/Cmd.lean); the lines are written down as functions of the integers (`factorText`, `divisorsLine`, `maximalLine`), with Mathlib's primes, factorizations and totients |
| C101 | the `f2_p_*` handlers except the random ones and the calculator (Model/CmdPoly.lean): a generic part over a record `Tool` of the operations of a polynomial type, and the handlers for F2 | rules for the generic part (Proof/CmdPoly.lean), the divisor functions of tfacinfo over any domain (Proof/FacDivisors.lean); the lines are functions of the polynomial (`hex`, `facText`, `matText`) or the ascending list of the polynomials with a property; built on C25, C53-C55, C58, C62, C70, C79, C89, C93, C97 |
| C102, C103 | the `fp_p_*` and `f2n_p_*` handlers except the random ones and the calculators (Model/CmdField.lean): one definition for both with the reading of the first argument and the `Tool` as parameters | rules over any finite field (Proof/CmdField.lean): `Each` says what a command prints for a list of arguments, where it stops and that it stops with status 1; the printed order is that of the numbers of the coefficients in base q; built on C70, C76, C93, C101 and, for the companion matrix, Mathlib's `charpoly` |
| C104 | `fp_list`, `fp_tbl`, `fp_ord`, `fp_max_ord`, `fp_orbit`, `fp_find_gen`, `fp_log` (Model/CmdRes.lean): one definition for all residue types with reading, printing, listing, order, generator and logarithm as parameters (`RTool`); the call `gcd(a, p)` of `fp_orbit` is resolved by C++ name lookup to that of polynomials over F2 | rules over any finite ring of residues (Proof/CmdRes.lean): `Elems` says that a list holds each element once in ascending order, `EachT` what is printed for a list of arguments, where it stops with status 1 and where with an exception; built on C59, C60, C61, C70; orbits by induction on the distance to the order of the multiplier |
| C105 | `f2_pm_list`, `f2_pm_tbl`, `f2_pm_ord`, `f2_pm_find_gen`, `f2_pm_log`, `f2_pm_ch_pol`, `f2_pm_min_pol`, `f2_pm_convert` (Model/CmdRes.lean): the definitions of C104 for `f2_polymod_t`; the loop of `f2_frobenius_length` gets a number of rounds | the rules of C104 with C59, C61, C70, C65, C86; the search for a generator is followed for all moduli of degree up to 15 (`gen_any`): either it meets the least generator after units only, or a non-unit before all generators and throws; that it never ends without result follows because the units of a finite field are cyclic |
| C106 | `fp_pm_list`, `fp_pm_tbl`, `fp_pm_ord`, `fp_pm_ch_pol`, `fp_pm_min_pol`, and the same for `f2n_pm_` with `find_gen` and `log` (Model/CmdPm.lean): the definitions of C104 for `fp_polymod_t` and `f2n_polymod_t`; `f2n_polymod_log` is modelled again with the lines it writes to `cout`; the loops of `fp_pm_ord` and of the Frobenius length get a number of rounds | the rules of C104 with C70, C59, C61, C85, C93; residues are ordered and printed by the representative of least degree (`C106_low`); the search for a generator is followed for all moduli (`f2n_gen_any`); `f2nLog_prints`: the logarithm that prints returns and throws as the one without printing does |
| C107 | `f2_mat_ord`, `fp_mat_ord`, `f2_pm_mat_ord`, `fp_pm_mat_ord`, `f2_mat_ch_pol`, `fp_mat_ch_pol`, `f2_pm_mat_ch_pol`, `f2_pm_mat_solve`, `load_from_file` (Model/CmdMat.lean). Files are a function from names to contents; standard input is a list of characters, and what is left of it is passed on from the matrix to the vector; the loop of the order gets a number of rounds | readers from C94 and C98, `det`, `rank` and products from C42, systems from C43, characteristic polynomials from C64 and C80; `MatHolds` says which texts hold which matrix; the loop is followed by `A^order`; orders of invertible matrices over finite fields are positive, and multiplication by a generator of `GaloisField 2 32` is a matrix of order 2^32-1 |
| C108 | `fpn_p_gcd`, `fpn_p_qp`, `q_cyclotomic` (Model/CmdRest.lean), with the table of cyclotomic polynomials passed from one argument to the next | readers from C93, gcd and extended gcd from C38 and C39 with the negation of C37, conversions from C89, cyclotomic polynomials from C71 |
| C109 | the loop of `cmd_line_parse` as a command, so that what is printed before an exception is kept, and 29 `*_op` commands with the arguments before the expression (Model/CmdCalc.lean, Model/CmdCalcRat.lean) | the parser of C90 stops at the end of an expression that a closing bracket or nothing follows; `Follows` carries the answers of C90, C96, C98 and C99 over; the order of `bit_t` by cases |
| C110 | spiff_main.cpp whole: the 136 entries of the tables, `-l`, the interpolation of braces through a modelled shell that runs the program itself, `main` (Model/Program.lean); what the commands depend on besides their arguments is a parameter | a relation `Does` for one command and an inductive relation `Runs` for nested braces; the shell cuts a command line of plain words into these words; induction on `Runs` with C72 for each level; names distinct by computation |
| C111 | the 15 commands *_random and *_mat_random (Model/CmdRandom.lean) on the random functions of C68, with the source of words a parameter | the drawn element as a closed formula in the words (`f2At`, `polyAt`); induction on the count and on rows and columns; word positions k·w for the k-th element |
| C112 | z_mat_op, f2_p_mat_op, fp_p_mat_op, f2n_p_mat_op, fpn_p_mat_op, f2n_pm_mat_op, f2n_pm_vec_op, fpn_pm_mat_op (Model/CmdCalcRing.lean) on the calculators of C98 | the elimination over a domain with a division that is exact or has a remainder (`DomRef`, Proof/DomMat.lean): up to the first pivot that is no unit it is the one of a field, there it throws, divides by zero or ends in the last row with that row zero; evaluation of expressions over commutative rings (Proof/ExprRing.lean); instances Proof/DomInst.lean |
| C113 | q_p_op and f2_pm_mat_diagonalizable with the report of `f2_polymod_matrix_is_diagonalizable`, whose constant `verbose` is 1 (Model/CmdLast.lean) | the report step by step along the proof of C95 (`Report` says what the printed factors, eigenvalues, degree and modulus are); q_p_op by the calculators of C96 with `IntRat` coefficients; no overflow: the sum of the absolute values of the coefficients is subadditive and submultiplicative, also for the partial sums of a product (Proof/CPolyZ.lean) |
| C114 | the arrays of tfacinfo.h with the heap of C74, references into arrays, self-merge (Model/FacStore.lean) | refinement of whole programs to functions giving the count of each factor (`SRun`), ownership invariant; the values ever inserted bound the length of every list; blocks without owner stay allocated (`run_lost`) |
| C115 | fp_poly_t.cpp:77-98 (Model/PolyBase.lean) | the digit loop counts `Nat.log`; coefficients are `b / m^i % m` with the sign of `b`; C++ division truncates |
| C116 | the arrays of fp_poly_t.cpp (the three other classes have the same code) with the heap of C74, objects with addresses, references that may coincide, destructors of temporaries (Model/PolyStore.lean) | simulation of every program by the value model of Model/CPoly.lean with equal outcomes (`Sim`, `run_sim`), then refinement of the value program to Mathlib polynomials (`SRun`); ownership invariant with a count of the arrays nobody owns |
| C117 | fpelladd.cpp and fpellpts.cpp of pre-cmake/apps/ell from the parsed arguments on (Model/Elliptic.lean): check_point, the tangent and chord formulas, the case distinction, the enumeration; exit(1) is `throw`; sscanf and the printing of the text are not modelled | every formula is evaluated in `ZMod p` and compared with Mathlib's group law on `WeierstrassCurve.Affine.Point`; the check is characterised exactly; the list is compared with the table of all triples |
| C118 | ftelladd.cpp and ftellpts.cpp of the same directory, with `f2_polymod_list` of C70 (Model/Elliptic.lean) | the same over `AdjoinRoot m` with m irreducible |
| C119 | `tmvmonom` and `tmvpoly` of pre-cmake/classes/tmvpoly.h: product of monomials, find, insert, strip_zero_monoms, the constructors from one, two and three terms, `+`, `-`, `*`, the check for zero terms before printing (Model/MvPoly.lean); the array of terms is a list | the list denotes an `MvPolynomial (Fin n) R` if it has each monomial once with its coefficient (`Den`); invariants of the collecting loops over any coefficient ring that satisfies `CoefRef` |
| C120 | eval at a vector, partial_eval, deriv, find_degree, is_homogeneous, homogenize of the same classes (Model/MvPoly.lean) | the same denotation, against Mathlib's `eval`, `pderiv`, `totalDegree`, `IsHomogeneous` |
| C121 | calc_moebius, num_irreds_deg_is, num_irreds_deg_divides of pre-cmake (Model/Chart.lean); int_factor is the one of the library | against Mathlib's `moebius`; Base/IrredCount.lean proves that the degrees of the irreducible polynomials add up to q^n (factors of X^(q^n) - X) and inverts the sum; the loop by the partial sums, which stay below 2^i |
| C122 | find_irreds and the part of main that calls it (Model/Chart.lean); `exit(1)` is `throw` | loop invariant: those below f are found; the array is long enough because the found ones are distinct members of a set with num_irreds_deg_is(n) elements |
| C123 | `*=`, `/=`, mult_by with an element of the same vector (the reference is read again in every round), componentwise `*=`, find_row, `==` with a scalar (Model/VecAlias.lean) | the array is filled from the left; the aliased element is the old one up to its position and the new one after it |
| C124 | check_kernel_basis, check_inverse, `==`, `-` of bit_matrix_t (Model/BitCheck.lean), check_kernel_basis and check_inverse of tmatrix (Model/ExprInst3.lean) | `Gate U r C`: returns if C holds, throws if not; the loop over rows is a conjunction of gates |
| C125 | pre-cmake/examples/crt2.cpp from the parsed arguments on (Model/Crt2.lean), with the cache of recip passed along; a line is the five printed residues | C12 and C13 for each operation; the formula by divisibility; induction on the remaining rounds |
| C126 | poly_of_matrix and the test for zero of pre-cmake/tools/single.cpp (Model/PolyMat.lean) | invariant: the sum up to i and the power i; C42, C43; Mathlib's `aeval`, `minpoly`, `charpoly` |
| C127 | F2_frob and F2_frobit of pre-cmake/apps/agff/agff.cpp (Model/FrobOrbit.lean) | invariant: the first j rows are the iterates; Mathlib's minimal period and `FiniteField.pow_card` |
| C128 | F2_Fq_embed and the counting loops of f2apolist_main in pre-cmake/apps/agff/agff.cpp (Model/Zeros.lean) | C88 (every point once), C120 (values, homogenize); the cone over a projective zero set |
| C69, C72 | tokenize.cpp, cmd_interp.cpp; `popen` is a parameter giving each command line's output | list induction against `List.splitOnP`; a grammar of balanced lists; multi-round evaluation |
| C74 | tstack.h with an explicit heap of blocks | refinement of whole programs to lists, ownership invariant |
| C75, C87 | f2_polyrat_t.cpp, fp_polyrat_t.cpp, f2n_polyrat_t.cpp, one generic model | refinement to `RatFunc K`; the unnormalised Euclidean gcd is homogeneous, hence a normal form |
| C70, C88 | list_elements.cpp | the increment loops follow a bijection of polynomials with ℕ; base-q digits; last non-zero entry |
| C71, C89 | cyclo_poly.cpp, qff.cpp; the memo table is passed in and returned | product of cyclotomic polynomials over divisors; coefficient bounds (binomial, geometric for prime powers) exclude overflow |
| C90 | cmd_line_ops.h, cmd_line_vector_ops.h, cmd_line_matrix_ops.h, one model with a dialect; fp_op, q_op, z_op | a grammar as an inductive relation; recursive descent is sound and complete for it, with any operations; the tree-building operations give unambiguity |
| C91 | `operator<<`, `operator>>`, `from_string` of intmod_t and intrat_t on a model of `istream` | the texts denoting a number as a relation, extraction decides it |

## 3. Trusted base

* Lean 4.33.0's kernel, and Mathlib as installed.  No axioms beyond `propext`, `Classical.choice`,
  `Quot.sound`; no `sorry`, `native_decide`, `bv_decide`.
* The reading of the C++ text into Lean: nothing is extracted mechanically.  Each definition cites its source.
* Simplifications made in the model (each also noted at the definition):
  - container sizes, dimensions and degrees are `Nat`; theorems that need them to fit an `int` say so;
  - a `tfacinfo` is a list in the model of the factorization functions; that its array behaves like this list is C114; its `qsort` is modelled as a stable insertion sort; the
    `qsort` calls of the logarithms and of `tvector::sort` are a parameter, any function returning a sorted rearrangement;
  - `intmod_t`'s static reciprocal cache is explicit state threaded through histories (C13); inside larger
    algorithms each call starts with the initial cache, which C13 shows makes no difference to the result;
  - an exception leaves no observable object, so corruption of `*this` before a throw is not tracked;
  - output parameters are distinct from the inputs (no aliasing) except where C49 is about it;
  - the mask expression of `bit_vector_t::trim` shifts an `int` by up to 63; it is a parameter of the model
    (`TrimMask`), theorems hold for every value it may take, and `*_violated_strict` give the literal reading.
  - the standard stream library is modelled for `int` in the "C" locale (`Verif/Model/Scan.lean`) as the C++ standard
    describes it; members of a calculator value that are never assigned are not represented;
* Not modelled: iostream formatting other than where a property names it, memory allocation failure, integer
  counts that would need more than 2^31 elements, exception-message text, destructors
  (except in C74, C114 and C116), exceptions thrown by streams, timing, and the programs under /repo/pre-cmake other than
  the four of apps/ell (C117, C118) examples/crt2.cpp (C125) tools/single.cpp (C126) and parts of apps/agff/agff.cpp (C127, C128); of its classes only tmvpoly.h (C119, C120), and moebius.cpp
  with the counting functions of tools/f2pmchart.cpp (C121, C122; the chart itself is not modelled, and tools/fppmchart.cpp calls a function
  `calc_power` whose source is not there and `num_irreds_deg_is` with one argument of two).  All commands of /repo/cli/spiff are modelled.

## 4. Where the code and the properties disagree

Every entry is a theorem; the positive part of the property is proved on the complement, or as close to it as stated
in `MANIFEST.json`.

| Prop | Theorem | What happens |
|---|---|---|
| C01 | `C01_violated_sign`, `C01_ub_iff` | gcd(0,-4) = -4; INT_MIN with a non-zero partner is undefined |
| C03 | `C03_violated` | lcm multiplies before dividing: lcm(65536,65536) overflows |
| C04 | `C04_violated` | an unused final squaring overflows: 2^16 |
| C06 | `C06_violated` | totient of 1 is 0 |
| C12 | `C12_mul_violated` | products overflow for every modulus above 46341 |
| C13 | `C13_violated_large` | reciprocals too |
| C14, C32, C48 | `C14_violated_int_min`, `C32_int_min`, `C48_violated_int_min` | exponent INT_MIN is negated |
| C16 | `C16_violated` | reading a negative residue leaves it uncanonical |
| C17 | `C17_violated_int_min` | numerator INT_MIN is negated |
| C19 | `C19_violated` | 0 * x^100 leaves an untrimmed zero; multiplying that writes out of bounds |
| C29 | `C29_violated`, `C29_violated_ub` | `set_coeff` shifts an `int` |
| C35 | `C35_violated` | divisor enumeration overflows in `int_power` |
| C36 | `C36_fpn_violated` | subtraction over fpn uses the broken unary minus |
| C37 | `C37_fp_violated`, `C37_f2n_violated` | unary minus of any non-constant polynomial writes out of bounds |
| C39 | `C39_fp_violated` | ext_gcd with zero second argument throws |
| C40, C41 | `C40_fpn_deriv_violated`, `C41_violated_scalar`, `C41_violated_negative` | scalar multiplication scales the modulus; negative multiples do nothing |
| C45 | `C45_violated` | kernel over fpn uses the broken unary minus |
| C46 | `C46_violated_paste` | `paste` uses the row count as column offset |
| C47, C49 | `C47_violated`, `C49_tvector_violated`, `C49_bit_vector_violated` | assignment to a shorter vector writes out of bounds |
| C48 | `C48_violated_zero` | zeroth power of a singular matrix is refused |
| C50 | `C50_violated_eq`, `C50_violated_fill` | equality ignores the last word; fill shifts an `int` too far |
| C51, C53 | `C51_violated_strict`, `C53_violated_strict` | the same shift in the kernel basis |
| C52 | `C52_violated`, `C52_violated_exp`, `C52_violated_outer` | bit matrix inverse and outer product always throw |
| C55, C76 | `C55_violated`, `C76_violated` | the search for degree 1 skips x |
| C57 | `C57_violated_31`, `C57_violated_32` | `1 << degree` for fields of 2^31 elements and more |
| C58, C78 | `C58_violated`, `C78_violated_fp`, `C78_violated_f2n` | totients overflow although representable |
| C77 | `C77_violated_zero` | roots of the zero polynomial |
| C59 | `C59_violated_17` | orders modulo irreducible polynomials of degree 17 are undefined |
| C60 | `C60_violated_reducible` | generator search throws at the first non-unit |
| C61 | `C61_violated_31`, `C61_violated_32`, `C61_violated_f2n` | `1 << degree`; over F_{2^n} the search range is 2^deg instead of 2^(n deg) |
| C62, C79 | `C62_violated_31`, `C79_violated_search` | primitive polynomials of degree 31 |
| C63 | `C63_violated_constant` | the companion matrix of a constant is refused |
| C81 | `C81_violated_zero` | the determinant of a zero polynomial matrix throws: the denominator is never set |
| C82 | `C82_violated_32` | `1 << degree` again |
| C83 | `C83_violated_fp` | the left half ends as a diagonal of units, not as the identity; the matrix is called singular |
| C84 | `C84_violated_exp` | bit_t::exp ignores the exponent |
| C84 | `C84_violated_assign` | assigning an int to a bit_t does not reduce it modulo 2 |
| C86 | `C86_violated_31`, `C86_violated_32` | conversion takes logarithms, which fail for fields of 2^31 elements and more |
| C72 | `C72_violated_long`, `C72_violated_forever` | output is read through a 4096-byte buffer, tokens across its end are split; brackets in the output are evaluated again |
| C74 | `C74_violated_self_assign` | self-assignment of a stack discards its elements; the operator also lacks its return statement |
| C75 | `C75_violated_int_min`, `C75_violated_order` | exponent INT_MIN; comparison by cross products is not transitive |
| C87 | `C87_violated_neg_ub`, `C87_violated_neg_eq` | unary minus of polynomials; unary minus does not restore the normal form |
| C70 | `C70_violated_one` | modulo 1 the list of units is refused and the list of non-units holds an unassigned element |
| C70 | `C70_violated_31`, `C70_violated_all_31` | `1 << degree` |
| C70 | `C70_violated_monic` | fp_poly_list is documented to list monic polynomials, but lists all |
| C70 | `C70_violated_fp_power` | the number of polynomials is representable but int_power overflows |
| C88 | `C88_violated_zero` | affine space of dimension 0 is refused |
| C71 | `C71_violated_f2` | over F2 every cyclotomic polynomial of degree above 30 is undefined: `set_coeff` shifts an `int` |
| C89 | `C89_violated_fp`, `C89_violated_f2` | a vanishing leading coefficient leaves the degree too large, since the first object has modulus 1; the shift again |
| C90 | `C90_violated_fp_negative` | the calculator modulo p denies that -1 equals p - 1 |
| C90 | `C90_violated_int_min` | x ^ INT_MIN is undefined |
| C90 | `C90_violated_z_div_zero`, `C90_violated_z_negative_exponent` | the integer calculator divides by zero, and 2 ^ -1 is 0 |
| C91 | `C91_violated_mod_negative` | operator>> and from_string disagree on negative numbers |
| C91 | `C91_violated_rat_not_a_number` | a rational is read as zero from a text without a number |
| C91 | `C91_violated_rat_overflow` | a numerator out of range followed by anything is read as INT_MAX |
| C91 | `C91_violated_rat_stream_end` | reading rationals from a stream never fails at its end |
| C41, C36 | `C41_fpn_violated_sub`, `C36_fpn_violated_sub`, `C41_fpn_violated_negative` | fpn_polymod_t: subtraction is undefined for non-constant coefficients; negative multiples do nothing |
| C92 | `C92_violated_x` | the polynomial x is never returned, though it is irreducible |
| C93 | `C93_violated_fp_empty`, `C93_violated_fp_garbage` | from_string skips empty coefficients ("1,,2" is "1,2") and ignores what follows a number |
| C93 | `C93_violated_fp_dangling`, `C93_fpmod_from_string`, `C93_f2nmod_from_string`, `C93_fpnmod_from_string` | a text of separators only deletes the coefficient array and reports failure: the object points to freed memory, and for residues the destructor frees it again |
| C93 | `C93_violated_fp_large_modulus` | for moduli above 2^30 reading can overflow |
| C93 | `C93_violated_q_constant`, `C93_violated_q_refused`, `C93_violated_q_stream_sign` | over Q a printed constant of several digits is read as a polynomial of higher degree; fractions and negative constants are refused |
| C93 | `C93_violated_f2n_stream_end` | reading a polynomial over F2^n from a general stream fails if the text ends after it |
| C94 | `C94_violated_last_line` | a last line without newline is dropped when a matrix is read; the others are returned as the matrix, without failure |
| C94 | `C94_violated_comment_line` | a line holding only a comment ends the matrix, although comments after rows and before the matrix are skipped |
| C94 | `C94_violated_trailing_blank` | blanks after the last element make reading a vector fail |
| C94 | `C94_violated_drift` | white space in front of rows moves the start of the line buffer for all later lines; a line that then does not fit is written past its end |
| C94 | `C94_violated_rat_forever` | reading rationals never fails, so a vector of rationals followed by something else is read for ever |
| C95 | `C95_violated_31`, `C95_violated_32` | over F_{2^31} and F_{2^32} the diagonalizability test throws or is undefined even for diagonal matrices |
| C96 | `C96_violated_f2_zero` | `f*0*g` with deg f ≥ 64 and a shorter g ≠ 0 writes beyond the end of the product |
| C96 | `C96_violated_fp_neg`, `C96_violated_fpmod_neg`, `C96_violated_f2n_neg`, `C96_violated_fpn_neg` | minus a polynomial of positive degree, or a residue that is not constant, is undefined |
| C97 | `C97_violated_reread`, `C97_violated_reread_blank`, `C97_violated_reread_many` | `operator>>` of bit matrices does not reset the number of rows: reading a second matrix into the same object fails, or returns rows without columns, or beyond 40 rows copies from outside the array |
| C97 | `C97_violated_comment`, `C97_violated_trailing_blank` | white space after the last element of a row or vector, also in front of a comment, makes reading fail |
| C97 | `C97_violated_last_line` | a last line without newline is dropped when a bit matrix is read |
| C97 | `C97_violated_wide_matrix`, `C97_violated_long_vector` | what is printed of a matrix of more than 4096 columns, or of a vector of more than 1024 elements on a general stream, is refused |
| C98 | `C98_violated_bit_power` | `f2_vec_op` prints the base for every exponent: zero to the power -1 is zero |
| C98 | `C98_violated_lengths` | `a + b == c` with `c` longer than `a` and `b` writes past the end of a vector on the evaluator's stack |
| C99 | `C99_violated_f2_garbage`, `C99_violated_fp_garbage`, `C99_violated_f2n_garbage` | reading a quotient ignores that no polynomial was there: any other text is accepted as zero |
| C99 | `C99_violated_f2_forever`, `C99_violated_fp_forever`, `C99_violated_f2n_forever` | a vector of quotients that contains such a text is read for ever |
| C99 | `C99_violated_f2_stream_end`, `C99_violated_fp_stream_end` | reading quotients from a general stream never fails at its end |
| C99 | `C99_violated_fp_minus`, `C99_violated_f2n_minus`, `C99_violated_fp_minus_eq` | minus a quotient with a numerator of positive degree is undefined; minus 1/d is not equal to what is printed for it |
| C100 | `C100_violated_gcd_sign`, `C100_violated_lcm` | `z_gcd -4`, `z_gcd 0 -4` and `z_lcm -4 6` print negative numbers; `z_lcm` overflows on results in range and divides by zero on two zeros |
| C100 | `C100_violated_ext_zero`, `C100_violated_ext_check` | `z_gcd -e a 0` divides by zero; the check after the result is printed overflows |
| C100 | `C100_violated_totient`, `C100_violated_divisors`, `C100_violated_list` | the totient of 1 is printed as 0, 0 has the single divisor 1, `z_list 2147483647` overflows |
| C100 | `C100_violated_status`, `C100_violated_nth_prime_name` | exceptions and unknown commands give exit status 0; `nth_prime` is only known as `spffl::intmath::nth_prime` |
| C101 | `C101_violated_lcm`, `C101_violated_divisors` | `f2_p_lcm` divides by zero at the second zero argument, and prints nothing; `f2_p_divisors 0` prints 1, though everything divides zero |
| C102 | `C102_violated_empty` | `fp_p_deg 5 ''` reads a coefficient from an empty text: undefined |
| C102, C103 | `C102_violated_ext`, `C102_violated_lcm`, `C102_violated_divisors` and the same of C103 | `fp_p_gcd -e p f 0` and `fp_p_lcm p 0 0` throw; the divisors of 0 are printed as 1 |
| C102, C103 | `C102_violated_maximal`, `C102_violated_qp`, `C102_comp_mx` and the same of C103 | the maximal proper divisors of 2x^2+4 are printed with leading coefficient 2 but its divisors as monic; `fp_p_qp` prints leading zeros; companion matrices of polynomials that are not monic belong to another polynomial |
| C104 | `C104_violated_list_one`, `C104_violated_find_gen_status`, `C104_ord`, `C104_log`, `C104_tbl_log` | `fp_list -u 1` throws; `fp_find_gen 8` finds none and ends with status 0; `fp_ord 7 0`, `fp_log 7 2 3` and `fp_tbl 7 log:2` end with an uncaught exception after part of the output |
| C104 | `C104_violated_orbit_coprime`, `C104_violated_orbit_negative`, `C104_violated_orbit_one`, `C104_violated_orbit_overflow` | `fp_orbit 9 3` prints ten lines before it fails; `fp_orbit 3 -2` prints -2 and 1; `fp_orbit 1 5` prints 0 twice and fails; `fp_orbit 46342 46341` overflows |
| C105 | `C105_violated_list_31`, `C105_violated_ord_17`, `C105_violated_find_gen`, `C105_violated_min_pol` | `f2_pm_list -a` throws for degree 31; `f2_pm_ord` overflows for irreducible moduli of degree 17; `f2_pm_find_gen 4` and `f2_pm_tbl 4 log` throw though 3 generates the units; `f2_pm_min_pol 4 2` and `f2_pm_ch_pol 4 2` never end |
| C105 | `C105_violated_log` | `f2_pm_log 83 2 60` prints 139 though the order of the base is 127 and the residue is its 12th power; `f2_pm_tbl 9 log` prints 6, 7, 8 for a base of order 3 |
| C106 | `C106_violated_fp_commas`, `C106_violated_f2n_colons`, `C106_violated_fp_ord`, `C106_violated_null_usage` | `fp_pm_ord 3 100 ,` reads the first element of an empty vector; an order above 2147483647 overflows the counter; `fp_pm_mat_op` without arguments calls a null pointer |
| C106 | `C106_violated_fp_hang`, `C106_violated_f2n_hang` | `fp_pm_min_pol 3 100 10` never ends |
| C106 | `C106_violated_f2n_find_gen`, `C106_violated_f2n_log` | `f2n_pm_find_gen 7 1:1:0` throws; `f2n_pm_log` prints some twenty lines before each exponent and throws for most powers of a base of large order |
| C107 | `C107_violated_f2_ord`, `C107_violated_fp_ord`, `C107_violated_f2n_ord`, `C107_violated_fpn_ord` | `fp_mat_ord 5` with nothing on standard input works on a matrix without rows; `1 2` with nothing else throws |
| C107 | `C107_violated_order` | some 32 by 32 matrix of bits has an order above 2147483647: `order++` overflows |
| C107 | `C107_violated_last_line` | `printf '1 1\\n0 1' \| spiff fp_mat_ord 5` throws; with three rows of two and no final newline, `fp_mat_ch_pol` takes the first two |
| C107 | `C107_violated_residues`, `C107_violated_length` | `fp_mat_ord 5` says that -4 has order 2; `fp_mat_ord 4` throws for a matrix of order 4; a right-hand side of the wrong length throws, or is said to have no unique solution |
| C108 | `C108_violated_ext`, `C108_violated_ext_zero`, `C108_violated_commas` | `fpn_p_gcd -e 3 101 10:0:1 1:1` negates a coefficient of degree 1; `fpn_p_gcd -e 3 101 1:10 0` throws; `fpn_p_gcd 3 101 , 1` reads beyond the text |
| C109 | `C109_violated_extra`, `C109_violated_null_usage` | `z_op 1 + 2 ")" "*" 3` prints 3 before the error and the status is 0; `fp_pm_mat_op 3` calls a null pointer |
| C110 | `C110_violated_unknown`, `C110_violated_inner`, `C110_violated_error`, `C110_violated_nth_prime`, `C110_violated_shell` | an unknown command has status 0; `z_gcd 12 { z_gdc 18 30 }` prints 12; `z_gcd { spffl::intmath::nth_prime 6542-6543 } 131042` uses what was printed before the exception; `nth_prime` is no command; `( )` inside braces is a syntax error of the shell |
| C113 | `C113_violated_31`, `C113_violated_32`, `C113_violated_minus`, `C113_violated_ignored`, `C113_violated_commas` | diag(0,1) over F_{2^31} and F_{2^32}; `q_p_op - 12` writes beyond an array; `q_p_op 1/2` prints 1 and `q_p_op 1,0,-1` prints 1,0; `q_p_op ,` frees memory twice |
| C114 | `C114_violated_leak`, `C114_violated_self_assign` | growing a factor list does not delete the old array; self-assignment of a factor list discards its factors |
| C115 | `C115_violated_modulus` | polynomials from digits: with modulus 1 or -1 the digit counter overflows, with modulus 0 a division by zero |
| C116 | `C116_violated_leak`, `C116_violated_self_assign`, `C116_violated_quotient_in_dividend`, `C116_violated_remainder_in_dividend` | `+`, `-`, `*` and `quot_and_rem` leave the array of the default constructor allocated; self-assignment discards the coefficients; `quot_and_rem` of a polynomial by one of larger degree with a result in the dividend loses the remainder |
| C117 | `C117_violated_sign`, `C117_violated_infinity` | check_point of fpelladd.cpp tests y² = x³ − a x² − b x + c, whatever z is: a point of the curve is refused unless a x² + b x = 0, the point at infinity (as argument or as result) unless c = 1 |
| C118 | `C118_violated_order_two` | ftelladd.cpp divides by zero when a point of order two is added to itself; the sum is the point at infinity |
| C119 | `C119_violated_zero_terms`, `C119_violated_three_terms` | `operator*` of tmvpoly.h does not remove terms that have become 0, and printing such a product ends the program with "coding error: found zero term"; the constructor for three terms sets `nmonoms` to 2 |
| C120 | `C120_violated_degree` | because of these terms `find_degree` of a product is the sum of the degrees, also where the product has a smaller degree |
| C121 | `C121_violated_moebius`, `C121_violated_range` | calc_moebius(0) is 1; the number for degree 0 divides by zero, for degree 31 it overflows |
| C122 | `C122_violated_30` | find_irreds(30) computes `(1 << 31) - 1` |
| C123 | `C123_violated_mult_own`, `C123_violated_div_own` | `v *= v[k]` multiplies what follows by the square of `v[k]`; `v /= v[k]` leaves what follows unchanged |
| C124 | `C124_violated_kernel`, `C124_violated_eq` | comparisons of bit vectors leave out the last word: with up to 64 rows check_kernel_basis accepts everything, with up to 64 columns all matrices of one size are equal |
| C125 | `C125_violated_overflow`, `C125_violated_one` | products above 2^30 overflow in the printed check; the modulus 1 has no reciprocals |
| C127 | `C127_violated_reducible` | modulo x^n with 4 ≤ n, F2_frobit returns n rows for the point x, the last two equal |
| C128 | `C128_violated_homogeneous` | homogeneous polynomials are evaluated at points with one coordinate too many, and f2apolist ends |
