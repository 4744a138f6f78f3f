/-
Property theorems for polynomials over F2 (C18 - C29).

`toPoly ps` is the polynomial whose coefficient of `x^t` is bit `t` of the word array; `Canon ps` says the
array has exactly the words its degree calls for.  `C18_canonical_*` below show that canonical arrays and
polynomials are in bijection, so statements about canonical arrays cover every polynomial.
-/
import Verif.Proof.F2Text

namespace Spffl
open Res Polynomial
namespace F2P

/-! ### C18 -/

/-- Every polynomial is stored by exactly one canonical array. -/
theorem C18_canonical_unique (p : (ZMod 2)[X]) : ∃! ps : F2P, Canon ps ∧ toPoly ps = p := by
  obtain ⟨ps, h1, h2⟩ := exists_canon p
  exact ⟨ps, ⟨h1, h2⟩, fun q hq => hq.1.eq h1 (hq.2.trans h2.symm)⟩

/-- Sum, difference and negation, for every pair of arrays (canonical or not), with canonical result. -/
theorem C18_add (a b : F2P) (ha : a ≠ []) :
    ∃ r, add a b = ok r ∧ sub a b = ok r ∧ toPoly r = toPoly a + toPoly b ∧
      toPoly r = toPoly a - toPoly b ∧ Canon r := by
  obtain ⟨r, hr, h1, h2⟩ := add_ok (b := b) ha
  refine ⟨r, hr, hr, h1, ?_, h2⟩
  rw [h1]; linear_combination (toPoly b) * two_eq_zero

theorem C18_neg (a : F2P) : neg a = ok a ∧ toPoly a = - toPoly a := by
  refine ⟨rfl, ?_⟩
  linear_combination (toPoly a) * two_eq_zero

/-- two three-word polynomials whose sum has one word -/
example : add [5, 7, 9] [6, 7, 9] = ok [3] := by decide
example : Canon [5, 7, 9] := canon_of_last (by simp) (by decide)

/-! ### C19 -/

/-- The product of any two stored polynomials: no out-of-range access, correct value; canonical unless
zero.  Missing from the full statement: left operands that are a zero stored in more than one word. -/
theorem C19_mul_partial (a b : F2P) (ha : Canon a) :
    ∃ r, mul a b = ok r ∧ toPoly r = toPoly a * toPoly b ∧ (toPoly r ≠ 0 → Canon r) := by
  obtain ⟨r, hr, h1, h2⟩ := mul_ok (b := b) ha
  exact ⟨r, hr, h1, h2.2⟩

example : mul [0, 3] [5, 1] = ok [0, 15, 3] := by decide

/-- `(0 * x^100) * 1` writes outside the result's storage. -/
theorem C19_violated : ∃ z, mul zero [0, 0x1000000000#64] = ok z ∧ toPoly z = 0 ∧ mul z one = ub := by
  refine ⟨[0, 0], by decide, ?_, by decide⟩
  rw [words_zero]; intro j
  rcases j with _ | _ | j <;> simp [g]

/-- A product is stored non-canonically exactly when it is zero and a factor has degree 64 or more. -/
theorem C19_noncanonical (a b r : F2P) (ha : Canon a) (h : mul a b = ok r) :
    ¬ Canon r ↔ toPoly a * toPoly b = 0 ∧ 64 ≤ (toPoly a).natDegree + (toPoly b).natDegree := by
  obtain ⟨r', hr, h1, h2⟩ := mul_gen (b := b) (Or.inl ha)
  obtain rfl : r = r' := by rw [h] at hr; injection hr
  constructor
  · intro hc
    have hz : toPoly a * toPoly b = 0 := by
      by_contra hne
      obtain ⟨q, hq, _, h3⟩ := mul_canon ha hne
      rw [h] at hq; injection hq with hq; subst hq
      exact hc h3
    refine ⟨hz, ?_⟩
    by_contra hlt
    apply hc
    unfold Canon
    rw [h2, h1, hz, natDegree_zero]
    omega
  · rintro ⟨h3, h4⟩ hc
    unfold Canon at hc
    rw [h2, h1, h3, natDegree_zero] at hc
    omega

/-! ### C20 -/

/-- Division with remainder by any non-zero divisor. -/
theorem C20_quot_and_rem (a b : F2P) (ha : Canon a) (hb : Canon b) (hz : toPoly b ≠ 0) :
    ∃ q r, quot_and_rem a b = ok (q, r) ∧ toPoly a = toPoly q * toPoly b + toPoly r ∧
      (toPoly r).degree < (toPoly b).degree ∧ Canon q ∧ Canon r := by
  obtain ⟨⟨q, r⟩, h, h1, h2, h3, h4⟩ := quot_and_rem_ok ha.good hb.ne_nil hz
  dsimp only at h1 h2 h3 h4
  refine ⟨q, r, h, ?_, ?_, h3, h4⟩
  · rw [h1, h2]; linear_combination -(EuclideanDomain.div_add_mod (toPoly a) (toPoly b))
  · rw [h2]; exact EuclideanDomain.mod_lt _ hz

theorem C20_operators (a b : F2P) (ha : Canon a) (hb : Canon b) (hz : toPoly b ≠ 0) :
    ∃ q r, div a b = ok q ∧ mod a b = ok r ∧ toPoly a = toPoly q * toPoly b + toPoly r ∧
      (toPoly r).degree < (toPoly b).degree := by
  obtain ⟨q, r, h, h1, h2, _⟩ := C20_quot_and_rem a b ha hb hz
  exact ⟨q, r, by rw [div, h]; rfl, by rw [mod, h]; rfl, h1, h2⟩

/-- Division by zero throws, however the zero is stored. -/
theorem C20_zero (a b : F2P) (hb : b ≠ []) (hz : toPoly b = 0) :
    quot_and_rem a b = throw ∧ div a b = throw ∧ mod a b = throw := by
  have := quot_and_rem_throw (a := a) hb hz
  exact ⟨this, by rw [div, this]; rfl, by rw [mod, this]; rfl⟩

example : quot_and_rem [1, 0, 1] [3, 1] = ok ([3, 1], [4]) := by decide +kernel
example : toPoly [3, 1] ≠ 0 := by
  rw [Ne, words_zero]; intro h; exact absurd (h 1) (by decide)

/-! ### C21 -/

/-- gcd terminates, divides both arguments, and every common divisor divides it. -/
theorem C21_gcd (a b : F2P) (ha : Canon a) (hb : Canon b) :
    ∃ d, gcd a b = ok d ∧ toPoly d ∣ toPoly a ∧ toPoly d ∣ toPoly b ∧
      (∀ c, c ∣ toPoly a → c ∣ toPoly b → c ∣ toPoly d) ∧ Canon d := by
  obtain ⟨d, h, h1, h2⟩ := gcd_ok ha hb
  exact ⟨d, h, h1.1, h1.2.1, h1.2.2, h2⟩

/-- The result does not depend on the order of the arguments. -/
theorem C21_symmetric (a b : F2P) (ha : Canon a) (hb : Canon b) : gcd a b = gcd b a := by
  obtain ⟨d, h, h1, h2, h3, h4⟩ := C21_gcd a b ha hb
  obtain ⟨e, h', h1', h2', h3', h4'⟩ := C21_gcd b a hb ha
  rw [h, h', h4.eq h4' (dvd_antisymm_F2 (h3' _ h2 h1) (h3 _ h2' h1'))]

example : gcd [0, 3] [0, 5] = ok [0, 3] := by decide +kernel

/-! ### C22 -/

theorem C22_ext_gcd (a b : F2P) (ha : Canon a) (hb : Canon b) :
    ∃ d m n, ext_gcd a b = ok (d, m, n) ∧ toPoly d = toPoly a * toPoly m + toPoly b * toPoly n ∧
      gcd a b = ok d ∧ Canon m ∧ Canon n := by
  obtain ⟨⟨d, m, n⟩, h, h1, h2, h3, h4, h5⟩ := ext_gcd_ok ha hb
  dsimp only at h1 h2 h3 h4 h5
  refine ⟨d, m, n, h, h2, ?_, h4, h5⟩
  obtain ⟨e, he, e1, e2, e3, e4⟩ := C21_gcd a b ha hb
  rw [he, e4.eq h3 (dvd_antisymm_F2 (h1.2.2 _ e1 e2) (e3 _ h1.1 h1.2.1))]

example : ext_gcd [7] [0, 2] = ok ([1], [0xb6db6db6db6db6db#64, 1], [2]) := by decide +kernel

/-! ### C23 -/

/-- Non-negative powers of non-zero polynomials, and positive powers of zero. -/
theorem C23_exp (a : F2P) (ha : Canon a) (e : ℕ) (h : toPoly a ≠ 0 ∨ 0 < e) :
    ∃ r, exp a e = ok r ∧ toPoly r = toPoly a ^ e ∧ Canon r := by
  by_cases hz : toPoly a = 0
  · have he : 0 < e := h.resolve_left (by simpa using hz)
    have := exp_zero ha hz (e : Int)
    rw [if_pos (by omega)] at this
    obtain ⟨r, h1, h2, h3⟩ := this
    exact ⟨r, h1, by rw [h2, hz, zero_pow (by omega)], h3⟩
  · obtain ⟨r, h1, h2, h3⟩ := exp_ok ha hz e
    exact ⟨r, h1, h2, h3⟩

theorem C23_one (a : F2P) (ha : Canon a) (h : toPoly a = 1) (e : Int) :
    ∃ r, exp a e = ok r ∧ toPoly r = 1 := by
  obtain ⟨r, h1, h2, _⟩ := exp_const ha h e
  exact ⟨r, h1, h2⟩

theorem C23_throws (a : F2P) (ha : Canon a) (e : Int) (h : toPoly a ≠ 1)
    (h' : e < 0 ∨ e = 0 ∧ toPoly a = 0) : exp a e = throw := by
  by_cases hz : toPoly a = 0
  · have := exp_zero ha hz e
    rwa [if_neg (by omega)] at this
  · refine exp_neg ha (Nat.pos_of_ne_zero fun hd => ?_) (h'.resolve_right fun h => hz h.2)
    rcases natDegree_zero_cases hd with h1 | h1 <;> contradiction

example : exp [3] 5 = ok [51] := by decide
example : exp [0] 0 = throw ∧ exp [2] (-1) = throw ∧ exp [1] (-7) = ok [1] := by decide

/-! ### C24 -/

theorem C24_deriv (a : F2P) (ha : Canon a) :
    ∃ r, deriv a = ok r ∧ toPoly r = derivative (toPoly a) ∧ Canon r := by
  obtain ⟨r, h⟩ := deriv_ok ha.ne_nil
  exact ⟨r, h⟩

/-- `square_root` returns true with the root on perfect squares and false on everything else. -/
theorem C24_square_root (a : F2P) :
    (∃ r, square_root a = ok (some r) ∧ toPoly r ^ 2 = toPoly a ∧ Canon r) ∨
      (square_root a = ok none ∧ ∀ r : (ZMod 2)[X], r ^ 2 ≠ toPoly a) := by
  obtain ⟨o, h, h1⟩ := square_root_ok a
  cases o with
  | none => right; exact ⟨h, fun r hr => h1 ⟨r, hr⟩⟩
  | some r => left; exact ⟨r, h, h1.2, h1.1⟩

/-- `deriv` is zero exactly when `square_root` succeeds (the test pre-factorization relies on). -/
theorem C24_deriv_zero (a : F2P) (ha : Canon a) :
    deriv a = ok zero ↔ ∃ r, square_root a = ok (some r) := by
  obtain ⟨d, h, h1, h2⟩ := C24_deriv a ha
  have e1 : deriv a = ok zero ↔ derivative (toPoly a) = 0 := by
    rw [h, ← h1]
    constructor
    · intro hd; injection hd with hd; rw [hd, toPoly_zero]
    · intro hd; rw [h2.eq canon_zero (hd.trans toPoly_zero.symm)]
  rw [e1, derivative_zero_iff]
  rcases C24_square_root a with ⟨r, hr, hr2, _⟩ | ⟨hn, hr⟩
  · exact ⟨fun _ => ⟨r, hr⟩, fun _ => ⟨_, hr2⟩⟩
  · constructor
    · rintro ⟨r, hrr⟩; exact absurd hrr (hr r)
    · rintro ⟨r, hrr⟩; rw [hn] at hrr; injection hrr with hrr; cases hrr

example : deriv [0xb, 3] = ok [5, 1] := by decide
example : square_root [5, 1] = ok (some [0x100000003#64]) ∧ square_root [7] = ok none := by decide

/-! ### C25 -/

theorem C25_eval (a : F2P) (ha : Canon a) (hsz : 64 * a.length ≤ 2147483647) (c : Int) :
    ∃ v, eval a c = ok v ∧ (v = 0 ∨ v = 1) ∧ (v : ZMod 2) = (toPoly a).eval (c : ZMod 2) := by
  obtain ⟨v, h, h1, h2⟩ := eval_ok ha.ne_nil hsz c
  exact ⟨v, h, h1, h2⟩

example : eval [7, 1] 1 = ok 0 ∧ eval [7, 1] (-2) = ok 1 ∧ eval [3, 1] 3 = ok 1 := by decide +kernel

/-! ### C26 -/

/-- `nval` is the integer with the polynomial's coefficients as binary digits. -/
theorem C26_order (a b : F2P) (ha : Canon a) (hb : Canon b) :
    eq a b = ok (decide (toPoly a = toPoly b)) ∧
    ne a b = ok (decide (toPoly a ≠ toPoly b)) ∧
    lt a b = ok (decide (nval (toPoly a) < nval (toPoly b))) ∧
    gt a b = ok (decide (nval (toPoly b) < nval (toPoly a))) ∧
    le a b = ok (decide (nval (toPoly a) ≤ nval (toPoly b))) ∧
    ge a b = ok (decide (nval (toPoly b) ≤ nval (toPoly a))) := by
  refine ⟨eq_ok ha.ne_nil hb.ne_nil, ?_, lt_ok ha.ne_nil hb.ne_nil, ?_, ?_, ?_⟩
  · unfold ne
    rw [cmp_ok ha.ne_nil hb.ne_nil, ok_bind]
    congr 1
    rw [Bool.eq_iff_iff, decide_eq_true_iff, bne_iff_ne]
    constructor
    · intro h he; apply h; rw [he]; simp [dir]
    · intro h h2; apply h; apply nval_inj; unfold dir at h2; split_ifs at h2 <;> omega
  · unfold gt
    rw [cmp_ok ha.ne_nil hb.ne_nil, ok_bind]
    congr 1
    rw [decide_eq_decide]; unfold dir; split_ifs <;> simp <;> omega
  · unfold le
    rw [cmp_ok ha.ne_nil hb.ne_nil, ok_bind]
    congr 1
    rw [decide_eq_decide]; unfold dir; split_ifs <;> simp <;> omega
  · unfold ge
    rw [cmp_ok ha.ne_nil hb.ne_nil, ok_bind]
    congr 1
    rw [decide_eq_decide]; unfold dir; split_ifs <;> simp <;> omega

/-- The integer order is a total order on polynomials. -/
theorem C26_injective : Function.Injective nval := fun _ _ => nval_inj

/-- comparison with an int looks at its low bit -/
theorem C26_eq_int (a : F2P) (ha : Canon a) (v : Int) :
    eqInt a v = ok (decide (toPoly a = C (v : ZMod 2))) := eqInt_ok ha.ne_nil v

example : lt [0xffffffffffffffff#64] [0, 1] = ok true ∧ lt [0, 1] [5, 1] = ok true := by decide

/-! ### C27 -/

/-- `increment` applied `n` times. -/
def incN : ℕ → F2P → Res F2P
  | 0, a => ok a
  | n + 1, a => do let b ← increment a; incN n b

theorem C27_increment (a : F2P) (ha : Canon a) :
    ∃ r, increment a = ok r ∧ nval (toPoly r) = nval (toPoly a) + 1 ∧ Canon r := by
  obtain ⟨r, h⟩ := increment_ok ha
  exact ⟨r, h⟩

theorem incN_ok : ∀ (n : ℕ) (a : F2P), Canon a →
    (incN n a).Ok (fun r => nval (toPoly r) = nval (toPoly a) + n ∧ Canon r)
  | 0, a, ha => by simp [incN, ha]
  | n + 1, a, ha => by
    unfold incN
    refine (increment_ok ha).bind fun b ⟨h1, h2⟩ => ?_
    refine (incN_ok n b h2).mono fun r ⟨h3, h4⟩ => ⟨by omega, h4⟩

/-- Counting from zero reaches every polynomial after exactly one number of steps. -/
theorem C27_enumerates (p : (ZMod 2)[X]) :
    ∃! n, ∃ r, incN n zero = ok r ∧ Canon r ∧ toPoly r = p := by
  have h0 : nval (0 : (ZMod 2)[X]) = 0 := by simp [nval]
  refine ⟨nval p, ?_, ?_⟩
  · obtain ⟨r, h, h1, h2⟩ := incN_ok (nval p) zero canon_zero
    refine ⟨r, h, h2, nval_inj ?_⟩
    rw [h1, toPoly_zero, h0, Nat.zero_add]
  · rintro n ⟨r, h, h1, rfl⟩
    obtain ⟨r', h', h2, _⟩ := incN_ok n zero canon_zero
    rw [h] at h'; injection h' with h'; subst h'
    rw [h2, toPoly_zero, h0, Nat.zero_add]

example : increment [0xffffffffffffffff#64] = ok [0, 1] ∧
    increment [0xffffffffffffffff#64, 4] = ok [0, 5] := by decide

/-! ### C28 -/

/-- The printed text is the hexadecimal form of the polynomial's integer value, without leading zeros. -/
theorem C28_print (a : F2P) (ha : Canon a) : print a = ok (hexOf (nval (toPoly a))) := print_ok ha.ne_nil

/-- Reading back what was printed, surrounded by blanks before and by anything that is not a digit after,
yields the same stored polynomial and leaves the stream just behind the text. -/
theorem C28_round_trip (a : F2P) (ha : Canon a) (ws rest : List Char) (hw : ∀ c ∈ ws, isBlank c)
    (hr : ∀ c, rest.head? = some c → hexVal c = none) :
    ∃ t, print a = ok t ∧ read (ws ++ t ++ rest) = ok (a, false, rest) := by
  refine ⟨_, C28_print a ha, ?_⟩
  obtain ⟨⟨r, f, s⟩, h, h1, h2, h3, h4⟩ := read_ok hw (hexOf_ne_nil _) (allHex_hexOf (nval (toPoly a))) hr
  dsimp only at h1 h2 h3 h4
  subst h3 h4
  rw [h, h2.eq ha (nval_inj (by rw [h1, hexNum_hexOf]))]

/-- Any digit string denotes its base-16 value, most significant digit first. -/
theorem C28_read (cs : List Char) (hne : cs ≠ []) (hc : ∀ c ∈ cs, (hexVal c).isSome) :
    ∃ r, read cs = ok (r, false, []) ∧ Canon r ∧ nval (toPoly r) = hexNum cs 0 := by
  obtain ⟨⟨r, f, s⟩, h, h1, h2, h3, h4⟩ := read_ok (ws := []) (rest := []) (by simp) hne hc (by simp)
  dsimp only at h1 h2 h3 h4
  subst h3 h4
  refine ⟨r, by simpa using h, h2, h1⟩

/-- Input without a digit at the first non-blank position sets the fail bit. -/
theorem C28_fail (ws rest : List Char) (hw : ∀ c ∈ ws, isBlank c)
    (hr : ∀ c, rest.head? = some c → hexVal c = none ∧ isBlank c = false) :
    ∃ r, read (ws ++ rest) = ok r ∧ r.2.1 = true := by
  obtain ⟨r, h⟩ := read_fail hw hr
  exact ⟨r, h⟩

example : print [0xab#64, 0x1f#64] = ok "1f00000000000000ab".toList := by decide +kernel
example : read " 1F00000000000000ab,".toList = ok ([0xab#64, 0x1f#64], false, [',']) := by decide +kernel

/-! ### C29 -/

/-- Reading any position, negative ones included. -/
theorem C29_bit_at (a : F2P) (t : ℕ) : bit_at a t = ok (decide ((toPoly a).coeff t = 1)) := by
  rw [bit_at_ok]
  congr 1
  rw [Bool.eq_iff_iff, decide_eq_true_iff, ← coeff_ne_zero]
  rcases one_or_zero ((toPoly a).coeff t) with h | h <;> simp [h]

/-- `set_bit` at any non-negative position. -/
theorem C29_set_bit (a : F2P) (ha : Canon a) (n : ℕ) :
    ∃ r, set_bit a n = ok r ∧ Canon r ∧ (toPoly r).coeff n = 1 ∧
      ∀ t, t ≠ n → (toPoly r).coeff t = (toPoly a).coeff t := by
  obtain ⟨r, h, h1, h2⟩ := set_bit_bits ha.ne_nil n
  refine ⟨r, h, h2 (Or.inl ha), ?_, fun t ht => ?_⟩
  · rw [coeff_toPoly, h1]; simp
  · rw [coeff_toPoly, coeff_toPoly, h1]; simp [ht]

/-- `set_coeff`, proved for positions whose offset in the word is below 31; the others are wrong. -/
theorem C29_set_coeff_partial (a : F2P) (ha : Canon a) (n : ℕ) (hn : n % 64 < 31) (b : Bool) :
    ∃ r, set_coeff a n b = ok r ∧ Canon r ∧ (toPoly r).coeff n = (if b then 1 else 0) ∧
      ∀ t, t ≠ n → (toPoly r).coeff t = (toPoly a).coeff t := by
  cases b with
  | true =>
    rw [set_coeff_true hn]
    simpa using C29_set_bit a ha n
  | false =>
    obtain ⟨r, h, h1, h2⟩ := set_coeff_false ha.ne_nil hn
    refine ⟨r, h, h2 ha, ?_, fun t ht => ?_⟩
    · rw [coeff_toPoly, h1]; simp
    · rw [coeff_toPoly, coeff_toPoly, h1]; simp [ht]

example : set_coeff [1] 70 true = ok [1, 64] ∧ set_coeff [1, 64] 70 false = ok [1] := by decide

/-- Position 31 changes 33 coefficients; positions 32 to 63 are undefined. -/
theorem C29_violated : set_coeff [0] 31 true = ok [0xffffffff80000000#64] ∧
    set_coeff [0xffffffffffffffff#64] 31 false = ok [0x7fffffff#64] := by decide

theorem C29_violated_ub (a : F2P) (n : ℕ) (h : 32 ≤ n % 64) : set_coeff a n true = ub := by
  unfold set_coeff
  rw [if_neg (by simp), if_neg (by omega)]
  have e : ishl 1 ((n : Int) % 64) = ub := by
    unfold ishl; rw [if_neg (by omega)]
  dsimp only
  rw [e]
  have hrd : ∀ q : F2P, ((n : Int) / 64).toNat < q.length → rd q ((n : Int) / 64).toNat = ok (g q ((n : Int) / 64).toNat) :=
    fun q hq => rd_g hq
  rw [hrd]
  · simp
  · split
    · rw [resize_length]; omega
    · omega

end F2P
end Spffl
