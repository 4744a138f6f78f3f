/-
Properties C59 - C62, C79: multiplicative order, generators of the group of units, discrete logarithms and primitive
polynomials, for the residue rings Z/m, F2[x]/(m) and K[y]/(M) with K = F2[x]/(m) a field.

`orderOf`, `IsUnit` and `Nat.card Rˣ` are Mathlib's.  `GenUnits x` says that `x` is a unit of its ring and every unit
is a power of it.  `F2Mod.Rep m a x`, `IntMod.Rep m a x` and `CM.F2nM m M a x` say that the object `a` denotes the
residue class `x`.  `tm` is the mask of bit_vector_t's trim as in Props/F2Factor.  `qs` is `qsort` with the comparator
of the file: any function that returns a sorted rearrangement (`IsQsort`); `C61_sort_exists` shows that there is one.
-/
import Verif.Proof.UnitsF2
import Verif.Proof.UnitsFp
import Verif.Proof.UnitsF2n
import Verif.Props.CMod

namespace Spffl.Props
open Res Polynomial F2P CM

/-- `x` is a unit and every unit is a power of `x` -/
def GenUnits {R : Type} [CommRing R] (x : R) : Prop := IsUnit x ∧ ∀ u : R, IsUnit u → ∃ k : ℕ, x ^ k = u

theorem genUnits_iff {R : Type} [CommRing R] [Finite R] {x : R} :
    GenUnits x ↔ IsUnit x ∧ orderOf x = Nat.card Rˣ := by
  constructor
  · rintro ⟨h1, h2⟩
    exact ⟨h1, (isGen_iff h1).mp fun u => h2 u u.isUnit⟩
  · rintro ⟨h1, h2⟩
    refine ⟨h1, fun u hu => ?_⟩
    obtain ⟨u, rfl⟩ := hu
    exact (isGen_iff h1).mpr h2 u

variable {V : Prop} {m : (ZMod 2)[X]}

/-! ### C59: order -/

/-- C59 over F2: the order of every unit, provided the divisors of the number of units can be listed without
overflow: that number is below 2^31 - 1, and for every prime `p` in it with exponent `e`, the repeated squaring of
`int_power` (squares up to the bit length of `e`) stays in range.  For moduli up to degree 15 this is automatic
(`C59_f2_small`).  Missing: other moduli, where the claim fails (`C59_violated_17`). -/
theorem C59_f2_order_partial {tm : TrimMask} (H : ∀ k, (tm k).Sat V fun _ => True) {a : F2Mod} {x : AdjoinRoot m}
    (ha : F2Mod.Rep m a x) (hx : IsUnit x) (hmax : (m.natDegree : Int) ≤ INT_MAX)
    (hlt : Nat.card (AdjoinRoot m)ˣ < 2147483647)
    (hp : ∀ p : ℕ, p.Prime → p ∣ Nat.card (AdjoinRoot m)ˣ →
      p ^ 2 ^ Nat.size ((Nat.card (AdjoinRoot m)ˣ).factorization p) ≤ 2147483647) :
    (F2U.order tm a).Sat V fun r => r = (orderOf x : Int) := F2U.order_sat H ha hx hmax hlt hp

theorem units_small_f2 (hm0 : m ≠ 0) (hd : m.natDegree ≤ 15) : Nat.card (AdjoinRoot m)ˣ ≤ 46340 :=
  (F2U.card_units_le hm0).trans ((Nat.pow_le_pow_right (by norm_num) hd).trans (by norm_num))

theorem C59_f2_small (M : ℕ → BitVec 64) {a : F2Mod} {x : AdjoinRoot m} (ha : F2Mod.Rep m a x) (hd : m.natDegree ≤ 15) :
    (IsUnit x → F2U.order (fun k => ok (M k)) a = ok (orderOf x : Int)) ∧
    (¬ IsUnit x → F2U.order (fun k => ok (M k)) a = throw) := by
  haveI := F2U.finite_adjoin ha.m_ne
  refine ⟨fun hx => ?_, fun hx => F2U.order_throw ha hx⟩
  have hc := units_small_f2 ha.m_ne hd
  obtain ⟨r, h1, h2⟩ := sat_false.mp (C59_f2_order_partial (some_mask M) ha hx (by unfold INT_MAX; omega) (by omega)
    (Units.powOk_of_small (orderOf_facts hx).2.2.2 hc))
  rw [h1, h2]

/-- Non-units throw, for every modulus. -/
theorem C59_f2_nonunit (tm : TrimMask) {a : F2Mod} {x : AdjoinRoot m} (ha : F2Mod.Rep m a x) (hx : ¬ IsUnit x) :
    F2U.order tm a = throw := F2U.order_throw ha hx

/-- x mod x^4+x^3+x^2+x+1 has order 5; x mod x^4+x+1 has order 15; x+1 mod x^3+1 is not a unit. -/
example : F2U.order (fun _ => ok 5#64) ⟨[0x2#64], [0x1f#64]⟩ = ok 5 := by decide +kernel
example : F2U.order (fun _ => ok 5#64) ⟨[0x2#64], [0x13#64]⟩ = ok 15 := by decide +kernel
example : F2U.order (fun _ => ok 5#64) ⟨[0x3#64], [0x9#64]⟩ = throw := by decide +kernel

/-- For every irreducible modulus of degree 17 and every unit the result is undefined: the number of units 131071 is
prime and listing its divisors squares it once more than needed. -/
theorem C59_violated_17 (M : ℕ → BitVec 64) {a : F2Mod} {x : AdjoinRoot m} (ha : F2Mod.Rep m a x) (hx : IsUnit x)
    (hirr : Irreducible m) (hd : m.natDegree = 17) : F2U.order (fun k => ok (M k)) a = ub := by
  have hc : Nat.card (AdjoinRoot m)ˣ = 131071 := by
    rw [C58_units hirr.ne_zero]
    have := polyTotient_prime_pow hirr (e := 1) one_pos
    rw [pow_one, ZMod.card, hd] at this
    exact this
  unfold F2U.order
  obtain ⟨g, h1, b, h2, h3⟩ := F2U.gcd_ne ha.cr ha.cm ha.hm
  rw [h1, ok_bind, h2, ok_bind, if_neg (by rw [h3, ha.val]; simpa using hx)]
  obtain ⟨r, h4, h5⟩ := sat_false.mp (F2U.totient_card (some_mask M) ha.cm ha.hm hirr.ne_zero (by rw [hd]; decide) (by omega))
  rw [h4, ok_bind, h5, hc, show Units.phi_divisors ((131071 : ℕ) : Int) = ub by decide +kernel]
  rfl

theorem C59_violated_exists : ∃ m : (ZMod 2)[X], Irreducible m ∧ m.natDegree = 17 ∧ ∃ a, F2Mod.Rep m a 1 := by
  obtain ⟨p, -, h2, h3⟩ := exists_irreducible_degree (K := ZMod 2) (n := 17) (by norm_num)
  obtain ⟨f, hf, rfl⟩ := exists_canon p
  exact ⟨_, h2, h3, (F2Mod.exists_rep f hf rfl h2.ne_zero 1).imp fun _ h => h.1⟩

/-- C59 over Z/n, for every modulus whose residue products fit an `int`. -/
theorem C59_fp_order {n : ℕ} (hn2 : 2 ≤ n) (hn : n ≤ 46341) {a : IntMod} {x : ZMod n} (ha : IntMod.Rep n a x) :
    (IsUnit x → FpU.order a = ok (orderOf x : Int)) ∧ (¬ IsUnit x → FpU.order a = throw) :=
  ⟨FpU.order_ok hn2 hn ha, FpU.order_throw hn2 hn ha⟩

example : FpU.order ⟨2, 101⟩ = ok 100 ∧ FpU.order ⟨10, 101⟩ = ok 4 ∧ FpU.order ⟨3, 16⟩ = ok 4 ∧ FpU.order ⟨6, 16⟩ = throw := by
  decide +kernel

/-- C59 over K[y]/(M), for fields of 2^deg m elements and moduli of degree d with 2^(2 d deg m) in `int` range.
Missing: larger moduli, where already the totient is not computed (C78). -/
theorem C59_f2n_order_partial [Fact (Irreducible m)] (hm : m.natDegree ≤ 30) {M : (AdjoinRoot m)[X]} {a : CMod F2Mod} {x : AdjoinRoot M}
    (ha : F2nM m M a x) (hx : IsUnit x) (hpos : 1 ≤ M.natDegree) (hsz : 2 ^ (2 * m.natDegree * M.natDegree) ≤ 2147483647) :
    F2nU.order a = ok (orderOf x : Int) := by
  haveI := finite_adjoin m
  letI := Fintype.ofFinite (AdjoinRoot m)
  refine F2nU.order_ok hm ha hx hpos hsz ?_
  have h1 : 1 ≤ m.natDegree := (Fact.out : Irreducible m).natDegree_pos
  have h2 : M.natDegree ≤ 2 * m.natDegree * M.natDegree := Nat.le_mul_of_pos_left _ (by omega)
  have h3 := (Nat.lt_two_pow_self (n := M.natDegree)).trans_le (Nat.pow_le_pow_right (by norm_num) h2)
  unfold INT_MAX; omega

theorem C59_f2n_nonunit [Fact (Irreducible m)] {M : (AdjoinRoot m)[X]} {a : CMod F2Mod} {x : AdjoinRoot M}
    (ha : F2nM m M a x) (hx : ¬ IsUnit x) : F2nU.order a = throw := by
  haveI := finite_adjoin m
  letI := Fintype.ofFinite (AdjoinRoot m)
  exact F2nU.order_throw ha hx

/-- y modulo y^2+y+x over F4 has order 15; y modulo y^2+y is not a unit -/
example : F2nU.order ⟨f2nOf 7 [0, 1], f2nOf 7 [2, 1, 1]⟩ = ok 15 := by decide +kernel
example : F2nU.order ⟨f2nOf 7 [0, 1], f2nOf 7 [0, 1, 1]⟩ = throw := by decide +kernel

/-! ### C60: generators -/

/-- C60 over F2, irreducible modulus: the first element, counting residues as binary numbers, whose powers are all the
units.  The conditions are those of C59; `C60_f2_small` needs only degree ≤ 15.  Missing: reducible moduli, where the
search may throw although there is a generator (`C60_violated_reducible`). -/
theorem C60_f2_generator_partial {tm : TrimMask} (H : ∀ k, (tm k).Sat V fun _ => True) {f : F2P} (hf : Canon f) (hfm : toPoly f = m)
    (hirr : Irreducible m) (hmax : (m.natDegree : Int) ≤ INT_MAX)
    (hlt : Nat.card (AdjoinRoot m)ˣ < 2147483647)
    (hp : ∀ p : ℕ, p.Prime → p ∣ Nat.card (AdjoinRoot m)ˣ →
      p ^ 2 ^ Nat.size ((Nat.card (AdjoinRoot m)ˣ).factorization p) ≤ 2147483647) :
    (F2U.find_generator tm f).Sat V fun r => ∃ g p, r = some g ∧ F2Mod.Rep m g (AdjoinRoot.mk m p) ∧ p.degree < m.degree ∧
      GenUnits (AdjoinRoot.mk m p) ∧
      ∀ q : (ZMod 2)[X], q.degree < m.degree → GenUnits (AdjoinRoot.mk m q) → nval p ≤ nval q := by
  haveI := F2U.finite_adjoin hirr.ne_zero
  refine (F2U.find_generator_sat H hf hfm hirr hmax hlt hp).mono ?_
  rintro r ⟨g, x, h1, h2, h3, h4, h5⟩
  obtain ⟨p, hp, rfl⟩ := F2nP.exists_red hirr.ne_zero x
  refine ⟨g, p, h1, h2, hp, genUnits_iff.mpr ⟨h3, h4⟩, fun q hq hg => ?_⟩
  have := h5 _ (genUnits_iff.mp hg).1 (genUnits_iff.mp hg).2
  rwa [F2nP.kv_mk hp, F2nP.kv_mk hq] at this

theorem C60_f2_small (M : ℕ → BitVec 64) {f : F2P} (hf : Canon f) (hirr : Irreducible (toPoly f)) (hd : (toPoly f).natDegree ≤ 15) :
    ∃ g p, F2U.find_generator (fun k => ok (M k)) f = ok (some g) ∧ F2Mod.Rep (toPoly f) g (AdjoinRoot.mk _ p) ∧
      p.degree < (toPoly f).degree ∧ GenUnits (AdjoinRoot.mk (toPoly f) p) ∧
      ∀ q : (ZMod 2)[X], q.degree < (toPoly f).degree → GenUnits (AdjoinRoot.mk (toPoly f) q) → nval p ≤ nval q := by
  haveI := F2U.finite_adjoin hirr.ne_zero
  have hc := units_small_f2 hirr.ne_zero hd
  obtain ⟨r, h1, g, p, rfl, h2⟩ := sat_false.mp (C60_f2_generator_partial (some_mask M) hf rfl hirr (by unfold INT_MAX; omega) (by omega)
    (Units.powOk_of_small Nat.card_pos hc))
  exact ⟨g, p, h1, h2⟩

/-- The least generator is x for x^4+x+1 and x+1 for x^8+x^4+x^3+x+1. -/
example : F2U.find_generator (fun _ => ok 5#64) [0x13#64] = ok (some ⟨[0x2#64], [0x13#64]⟩) := by decide +kernel
example : F2U.find_generator (fun _ => ok 5#64) [0x11b#64] = ok (some ⟨[0x3#64], [0x11b#64]⟩) := by decide +kernel

/-- Modulo x^2 the units are 1 and x+1, so x+1 generates them; the search throws when it meets x. -/
theorem C60_violated_reducible : toPoly [4#64] = X ^ 2 ∧ GenUnits (AdjoinRoot.mk (X ^ 2 : (ZMod 2)[X]) (X + 1)) ∧
    F2U.find_generator (fun _ => ok 5#64) [4#64] = throw := by
  refine ⟨?_, ⟨?_, fun u hu => ?_⟩, by decide +kernel⟩
  · ext t
    rw [coeff_toPoly, toPoly_single, coeff_X_pow]
    by_cases ht : t < 64
    · have : ∀ t : Fin 64, (4#64).getLsbD t.1 = decide (t.1 = 2) := by decide
      rw [this ⟨t, ht⟩]
      by_cases h2 : t = 2 <;> simp [ht, h2]
    · have h2 : ¬ t = 2 := by omega
      simp [ht, h2]
  · refine IsUnit.of_mul_eq_one (AdjoinRoot.mk _ (X + 1)) ?_
    rw [← map_mul, ← map_one (AdjoinRoot.mk _), AdjoinRoot.mk_eq_mk]
    refine ⟨1, ?_⟩
    have : (2 : (ZMod 2)[X]) = 0 := CharTwo.two_eq_zero
    linear_combination (X : (ZMod 2)[X]) * this
  · obtain ⟨p, hp, rfl⟩ := F2nP.exists_red (pow_ne_zero 2 X_ne_zero) u
    rw [F2Mod.isUnit_mk] at hu
    have hu : IsCoprime p X := (IsCoprime.pow_right_iff two_pos).mp hu
    have h0 : ¬ X ∣ p := ((irreducible_X (R := ZMod 2)).coprime_iff_not_dvd).mp hu.symm
    rw [X_dvd_iff] at h0
    rw [degree_X_pow] at hp
    obtain ⟨b, a, rfl⟩ := exists_eq_X_add_C_of_natDegree_le_one (p := p) (by
      by_cases hp0 : p = 0
      · rw [hp0]; simp
      · rw [degree_eq_natDegree hp0] at hp
        exact Nat.lt_succ_iff.mp (by exact_mod_cast hp))
    have ha : a = 1 := by
      have : a ≠ 0 := by simpa using h0
      exact (show ∀ a : ZMod 2, a ≠ 0 → a = 1 by decide) a this
    subst ha
    have hb : b = 0 ∨ b = 1 := (show ∀ b : ZMod 2, b = 0 ∨ b = 1 by decide) b
    rcases hb with rfl | rfl
    · exact ⟨0, by simp⟩
    · exact ⟨1, by simp⟩

/-- C60 over Z/n: the least generator if there is one, and `false` exactly when there is none. -/
theorem C60_fp_generator {n : ℕ} (hn2 : 2 ≤ n) (hn : n ≤ 46341) :
    (FpU.find_generator n).Ok fun r => match r with
      | none => ¬ ∃ x : ZMod n, GenUnits x
      | some g => ∃ x : ZMod n, IntMod.Rep n g x ∧ GenUnits x ∧ ∀ y : ZMod n, GenUnits y → x.val ≤ y.val := by
  haveI : NeZero n := ⟨by omega⟩
  refine (FpU.find_generator_ok hn2 hn).mono fun r hr => ?_
  cases r with
  | none =>
    rintro ⟨x, hx⟩
    obtain ⟨h1, h2⟩ := genUnits_iff.mp hx
    exact hr x h1 h2
  | some g =>
    obtain ⟨x, h1, h2, h3, h4⟩ := hr
    exact ⟨x, h1, genUnits_iff.mpr ⟨h2, h3⟩, fun y hy => h4 y (genUnits_iff.mp hy).1 (genUnits_iff.mp hy).2⟩

example : FpU.find_generator 41 = ok (some ⟨6, 41⟩) ∧ FpU.find_generator 18 = ok (some ⟨5, 18⟩) ∧ FpU.find_generator 15 = ok none := by
  decide +kernel

/-- C60 over K[y]/(M), M irreducible: the least generator in the order of base-|K| numbers.
Missing: sizes as in C59, and reducible moduli, where the loop throws at the first non-unit. -/
theorem C60_f2n_generator_partial [Fact (Irreducible m)] (hm : m.natDegree ≤ 30) {M : (AdjoinRoot m)[X]} {f : CPoly F2Mod}
    (hf : CP.F2n m f M) (hirr : Irreducible M) (hsz : 2 ^ (2 * m.natDegree * M.natDegree) ≤ 2147483647) :
    ∃ g p, F2nU.find_generator f = ok (some g) ∧ F2nM m M g (AdjoinRoot.mk M p) ∧ p.degree < M.degree ∧ GenUnits (AdjoinRoot.mk M p) ∧
      ∀ q : (AdjoinRoot m)[X], q.degree < M.degree → GenUnits (AdjoinRoot.mk M q) → f2nKey m p ≤ f2nKey m q := by
  haveI := finite_adjoin m
  letI := Fintype.ofFinite (AdjoinRoot m)
  haveI := F2nU.finite_adjoin hirr.ne_zero
  obtain ⟨r, h0, g, x, rfl, h2, h3, h4, h5⟩ := F2nU.find_generator_ok hm hf hirr hsz (by
    have h1 : 1 ≤ m.natDegree := (Fact.out : Irreducible m).natDegree_pos
    have h2 : M.natDegree ≤ 2 * m.natDegree * M.natDegree := Nat.le_mul_of_pos_left _ (by omega)
    have h3 := (Nat.lt_two_pow_self (n := M.natDegree)).trans_le (Nat.pow_le_pow_right (by norm_num) h2)
    unfold INT_MAX; omega)
  obtain ⟨p, hp, rfl⟩ := CMod.exists_lowdeg hirr.ne_zero x
  refine ⟨g, p, h0, h2, hp, genUnits_iff.mpr ⟨h3, h4⟩, fun q hq hg => ?_⟩
  have := h5 _ (genUnits_iff.mp hg).1 (genUnits_iff.mp hg).2
  rw [F2nU.kM_mk hp, F2nU.kM_mk hq] at this
  unfold F2nU.pk at this
  rwa [F2nP.card_eq] at this

example : (match F2nU.find_generator (f2nOf 7 [2, 1, 1]) with
    | ok (some g) => decide (g.residue.degree = 1 ∧ g.residue.coeffs[0]? = some ⟨[0], [7]⟩ ∧ g.residue.coeffs[1]? = some ⟨[1], [7]⟩)
    | _ => false) = true := by decide +kernel

/-! ### C61: discrete logarithms -/

/-- A sorting function as required exists for every comparator. -/
theorem C61_sort_exists {α : Type} (lt : α → α → Res Bool) : ∃ qs, IsQsort lt qs := Units.exists_qsort lt

/-- C61 over F2, moduli up to degree 30, irreducible or not: for a unit `g` the result is an exponent `r` with
`g^r = a`, and the call throws exactly when there is none; for a non-unit `g` it throws.
Missing: degree 31 and above (`C61_violated_31`, `C61_violated_32`). -/
theorem C61_f2_log_partial {qs : List (F2Mod × ℕ) → List (F2Mod × ℕ)} (hqs : IsQsort F2Mod.lt qs) {g a : F2Mod} {w x : AdjoinRoot m}
    (hg : F2Mod.Rep m g w) (ha : F2Mod.Rep m a x) (hd : m.natDegree ≤ 30) :
    (IsUnit w → ((F2U.log qs g a = throw ∧ ¬ ∃ r : ℕ, w ^ r = x) ∨ ∃ r : ℕ, F2U.log qs g a = ok (r : Int) ∧ r < 2 ^ 31 ∧ w ^ r = x)) ∧
    (¬ IsUnit w → F2U.log qs g a = throw) := F2U.log_sat hqs hg ha hd

/-- insertion sort, for the examples -/
def isortIns {α : Type} (lt : α → α → Res Bool) (x : α × ℕ) : List (α × ℕ) → List (α × ℕ)
  | [] => [x]
  | y :: l => match lt x.1 y.1 with
    | ok true => x :: y :: l
    | _ => y :: isortIns lt x l
def isort {α : Type} (lt : α → α → Res Bool) (l : List (α × ℕ)) : List (α × ℕ) := l.foldr (isortIns lt) []

/-- modulo x^4+x+1: x^7 = x^3+x+1; and x is not a power of x^5 = x^2+x, whose order is 3. -/
example : F2U.log (isort F2Mod.lt) ⟨[2#64], [0x13#64]⟩ ⟨[0xb#64], [0x13#64]⟩ = ok 7 := by decide +kernel
example : F2U.log (isort F2Mod.lt) ⟨[6#64], [0x13#64]⟩ ⟨[2#64], [0x13#64]⟩ = throw := by decide +kernel

/-- With a modulus of degree 31 every logarithm throws, with one of degree 32 or more it is undefined. -/
theorem C61_violated_31 (qs : List (F2Mod × ℕ) → List (F2Mod × ℕ)) {g a : F2Mod} {w : AdjoinRoot m} (hg : F2Mod.Rep m g w)
    (hd : m.natDegree = 31) : F2U.log qs g a = throw := by
  unfold F2U.log
  rw [find_degree_ok, ok_bind, hg.hm, hd]
  rfl
theorem C61_violated_32 (qs : List (F2Mod × ℕ) → List (F2Mod × ℕ)) {g a : F2Mod} {w : AdjoinRoot m} (hg : F2Mod.Rep m g w)
    (hd : 32 ≤ m.natDegree) : F2U.log qs g a = ub := by
  unfold F2U.log
  rw [find_degree_ok, ok_bind, hg.hm]
  have : ishl 1 m.natDegree = ub := by
    unfold ishl
    rw [if_neg (by omega)]
  rw [this]; rfl

/-- C61 over Z/n: as above, and the exponent is below the number of units. -/
theorem C61_fp_log {n : ℕ} (hn2 : 2 ≤ n) (hn : n ≤ 46341) {qs : List (IntMod × ℕ) → List (IntMod × ℕ)} (hqs : IsQsort IntMod.lt qs)
    {g a : IntMod} {w x : ZMod n} (hg : IntMod.Rep n g w) (ha : IntMod.Rep n a x) :
    (IsUnit w → ((FpU.log qs g a = throw ∧ ¬ ∃ r : ℕ, w ^ r = x) ∨
      ∃ r : ℕ, FpU.log qs g a = ok (r : Int) ∧ r < Nat.card (ZMod n)ˣ ∧ w ^ r = x)) ∧
    (¬ IsUnit w → FpU.log qs g a = throw) := FpU.log_ok hn2 hn hqs hg ha

example : FpU.log (isort IntMod.lt) ⟨2, 101⟩ ⟨55, 101⟩ = ok 37 := by decide +kernel
example : FpU.log (isort IntMod.lt) ⟨4, 101⟩ ⟨2, 101⟩ = throw := by decide +kernel

/-- C61 over K[y]/(M): what is returned is a logarithm, and every element that is `g^r` with `r < 2^deg M` is found.
Missing: larger exponents, which are not searched (`C61_violated_f2n`). -/
theorem C61_f2n_log_partial [Fact (Irreducible m)] {M : (AdjoinRoot m)[X]} {qs : List (CMod F2Mod × ℕ) → List (CMod F2Mod × ℕ)}
    (hqs : IsQsort (CMod.lt F2Mod.cops) qs) {g a : CMod F2Mod} {w x : AdjoinRoot M} (hg : F2nM m M g w) (ha : F2nM m M a x)
    (hd : M.natDegree ≤ 30) :
    (IsUnit w → ((F2nU.log qs g a = throw ∧ ¬ ∃ r < 2 ^ M.natDegree, w ^ r = x) ∨ ∃ r : ℕ, F2nU.log qs g a = ok (r : Int) ∧ w ^ r = x)) ∧
    (¬ IsUnit w → F2nU.log qs g a = throw) := by
  haveI := finite_adjoin m
  letI := Fintype.ofFinite (AdjoinRoot m)
  obtain ⟨h1, h2⟩ := F2nU.log_sat hqs hg ha hd
  refine ⟨fun hw => ?_, h2⟩
  obtain ⟨k, k1, k2, h | ⟨r, h3, h4, h5⟩⟩ := h1 hw
  · exact Or.inl ⟨h.1, fun ⟨r, hr, hrx⟩ => h.2 ⟨r, by omega, hrx⟩⟩
  · exact Or.inr ⟨r, h3, h5⟩

/-- The number of steps is computed from 2^deg M instead of |K|^deg M.  If the order of `g` is at least 4 * 2^deg M, as
for a generator of F_256 over F_4, some powers of `g` are not found whatever the sorting function. -/
theorem C61_violated_f2n [Fact (Irreducible m)] {M : (AdjoinRoot m)[X]} {g : CMod F2Mod} {w : AdjoinRoot M} (hg : F2nM m M g w)
    (hw : IsUnit w) (hd : M.natDegree ≤ 30) (ho : 4 * 2 ^ M.natDegree ≤ orderOf w) :
    ∃ r : ℕ, ∀ a qs, F2nM m M a (w ^ r) → IsQsort (CMod.lt F2Mod.cops) qs → F2nU.log qs g a = throw := by
  haveI := finite_adjoin m
  letI := Fintype.ofFinite (AdjoinRoot m)
  have hpos := Nat.one_le_two_pow (n := M.natDegree)
  refine ⟨4 * 2 ^ M.natDegree - 1, fun a qs ha hqs => ?_⟩
  obtain ⟨k, k1, k2, h | ⟨r, h3, h4, h5⟩⟩ := (F2nU.log_sat hqs hg ha hd).1 hw
  · exact h.1
  · exfalso
    have hk : k * k < 4 * 2 ^ M.natDegree := by
      rcases Nat.lt_or_ge k 2 with hk | hk
      · have : k * k ≤ 1 * 1 := Nat.mul_le_mul (by omega) (by omega)
        omega
      · obtain ⟨j, rfl⟩ : ∃ j, k = j + 1 := ⟨k - 1, by omega⟩
        rw [Nat.add_sub_cancel] at k2
        nlinarith
    have := pow_injOn_Iio_orderOf (x := w) (show r < orderOf w by omega) (show 4 * 2 ^ M.natDegree - 1 < orderOf w by omega) h5
    omega

/-- F_4[y]/(y^2+y+x) has 15 units, all of them powers of y; the search for the logarithm of y^5 = x throws. -/
example : (F2nU.log (isort (CMod.lt F2Mod.cops)) ⟨f2nOf 7 [0, 1], f2nOf 7 [2, 1, 1]⟩ ⟨f2nOf 7 [2], f2nOf 7 [2, 1, 1]⟩ = throw) := by
  decide +kernel

/-! ### C62: primitive polynomials -/

/-- C62, the test: whether x generates the units modulo `f` (in particular is one), for `f` of any degree if there are
fewer than 2^31 - 1 units; `C62_is_primitive_30` needs only degree ≤ 30.  `f` need not be irreducible.
Missing: more units (`C62_violated_31`). -/
theorem C62_is_primitive_partial {tm : TrimMask} (H : ∀ k, (tm k).Sat V fun _ => True) {f : F2P} (hf : Canon f) (hfm : toPoly f = m)
    (hm0 : m ≠ 0) (hmax : (m.natDegree : Int) ≤ INT_MAX)
    (hlt : IsUnit (AdjoinRoot.root m) → Nat.card (AdjoinRoot m)ˣ < 2147483647) :
    (F2U.is_primitive tm f).Sat V fun b => b = true ↔ GenUnits (AdjoinRoot.root m) := by
  haveI := F2U.finite_adjoin hm0
  exact (F2U.is_primitive_sat H hf hfm hm0 hmax hlt).mono fun b h => by rw [h, genUnits_iff]

theorem C62_is_primitive_30 (M : ℕ → BitVec 64) {f : F2P} (hf : Canon f) (hm0 : toPoly f ≠ 0) (hd : (toPoly f).natDegree ≤ 30) :
    (F2U.is_primitive (fun k => ok (M k)) f).Ok fun b => b = true ↔ GenUnits (AdjoinRoot.root (toPoly f)) :=
  sat_false.mp (C62_is_primitive_partial (some_mask M) hf rfl hm0 (by unfold INT_MAX; omega) fun _ =>
    lt_of_le_of_lt ((F2U.card_units_le hm0).trans (Nat.pow_le_pow_right (by norm_num) hd)) (by norm_num))

example : F2U.is_primitive (fun _ => ok 5#64) [0x13#64] = ok true ∧ F2U.is_primitive (fun _ => ok 5#64) [0x1f#64] = ok false ∧
    F2U.is_primitive (fun _ => ok 5#64) [0x6#64] = ok false ∧ F2U.is_primitive (fun _ => ok 5#64) [0x5#64] = ok true := by decide +kernel

/-- C62, the period: 0 when x divides `f`, otherwise the order of x modulo `f`. -/
theorem C62_period_partial (M : ℕ → BitVec 64) {f : F2P} (hf : Canon f) (hm0 : toPoly f ≠ 0) (hd : (toPoly f).natDegree ≤ 15) :
    (X ∣ toPoly f → F2U.period (fun k => ok (M k)) f = ok 0) ∧
    (¬ X ∣ toPoly f → F2U.period (fun k => ok (M k)) f = ok (orderOf (AdjoinRoot.root (toPoly f)) : Int)) := by
  haveI := F2U.finite_adjoin hm0
  rw [X_dvd_iff, ← ne_eq, ← F2U.isUnit_root_iff]
  refine ⟨fun h => F2U.period_zero hf rfl fun hh => F2U.isUnit_root_iff.mp hh h, fun h => ?_⟩
  have hc := units_small_f2 hm0 hd
  obtain ⟨r, h1, h2⟩ := sat_false.mp (F2U.period_sat (some_mask M) hf rfl hm0 h (by unfold INT_MAX; omega) (by omega)
    (Units.powOk_of_small Nat.card_pos hc))
  rw [h1, h2]

example : F2U.period (fun _ => ok 5#64) [0x1f#64] = ok 5 ∧ F2U.period (fun _ => ok 5#64) [0x9#64] = ok 3 ∧
    F2U.period (fun _ => ok 5#64) [0x12#64] = ok 0 := by decide +kernel

/-- what a search for primitive polynomials of degree `d` looks for -/
def PrimOfDegree (need_irr : Bool) (d : ℕ) (p : (ZMod 2)[X]) : Prop :=
  p.natDegree = d ∧ GenUnits (AdjoinRoot.root p) ∧ (need_irr = true → Irreducible p)

theorem want_iff {b : Bool} {d : ℕ} (hd : 1 ≤ d) {p : (ZMod 2)[X]} : PrimOfDegree b d p ↔ F2U.Want b p ∧ p.natDegree = d := by
  unfold PrimOfDegree F2U.Want F2U.Prim
  constructor
  · rintro ⟨h1, h2, h3⟩
    haveI := F2U.finite_adjoin (m := p) (by rintro rfl; simp at h1; omega)
    exact ⟨⟨genUnits_iff.mp h2, h3⟩, h1⟩
  · rintro ⟨⟨h2, h3⟩, h1⟩
    haveI := F2U.finite_adjoin (m := p) (by rintro rfl; simp at h1; omega)
    exact ⟨h1, genUnits_iff.mpr h2, h3⟩

/-- C79, the search: degrees 1 to 30; the result is the least polynomial of the degree with the property.
Missing: degree 31 (`C79_violated_search`) and beyond. -/
theorem C79_find_prim_partial {tm : TrimMask} (H : ∀ k, (tm k).Sat V fun _ => True) (need_irr : Bool) {d : ℕ} (hd1 : 1 ≤ d) (hd : d ≤ 30) :
    (F2U.find_prim tm d need_irr).Sat V fun r => Canon r ∧ PrimOfDegree need_irr d (toPoly r) ∧
      ∀ p, PrimOfDegree need_irr d p → nval (toPoly r) ≤ nval p := by
  refine (F2U.find_prim_sat H need_irr hd1 hd).mono ?_
  rintro r ⟨h1, h2, h3, h4⟩
  exact ⟨h1, (want_iff hd1).mpr ⟨h2, h3⟩, fun p hp => h4 p ((want_iff hd1).mp hp).1 ((want_iff hd1).mp hp).2⟩

theorem C79_find_prim_total (M : ℕ → BitVec 64) (need_irr : Bool) {d : ℕ} (hd1 : 1 ≤ d) (hd : d ≤ 30) :
    ∃ r, F2U.find_prim (fun k => ok (M k)) d need_irr = ok r ∧ Canon r ∧ PrimOfDegree need_irr d (toPoly r) ∧
      ∀ p, PrimOfDegree need_irr d p → nval (toPoly r) ≤ nval p :=
  sat_false.mp (C79_find_prim_partial (some_mask M) need_irr hd1 hd)

theorem C79_find_prim_nonpositive (tm : TrimMask) (need_irr : Bool) {d : Int} (hd : d < 1) : F2U.find_prim tm d need_irr = throw :=
  F2U.find_prim_throw tm need_irr hd

/-- without `need_irr` the search for degree 2 returns x^2+1, modulo which x generates the units {1, x} -/
example : F2U.find_prim (fun _ => ok 5#64) 8 true = ok [0x11d#64] ∧ F2U.find_prim (fun _ => ok 5#64) 2 true = ok [0x7#64] ∧
    F2U.find_prim (fun _ => ok 5#64) 2 false = ok [0x5#64] := by decide +kernel

/-- C79, random search: on every sequence of random polynomials of degree 1 to 30 the result is the first with the
property; the loop goes on exactly as long as there was none. -/
theorem C79_random (M : ℕ → BitVec 64) (need_irr : Bool) {d : ℕ} (hd1 : 1 ≤ d) (hd : d ≤ 30) {l : List F2P}
    (hl : ∀ p ∈ l, Canon p ∧ (toPoly p).natDegree = d) :
    (F2U.random_prim (fun k => ok (M k)) d need_irr l = timeout ∧ ∀ p ∈ l, ¬ PrimOfDegree need_irr d (toPoly p)) ∨
    ∃ r ∈ l, F2U.random_prim (fun k => ok (M k)) d need_irr l = ok r ∧ PrimOfDegree need_irr d (toPoly r) := by
  unfold F2U.random_prim
  rw [if_neg (by omega)]
  rcases F2U.random_prim_from_sat (some_mask M) need_irr l fun p hp => ⟨(hl p hp).1, by
    intro h; have := (hl p hp).2; rw [h] at this; simp at this; omega, by rw [(hl p hp).2]; exact hd⟩ with ⟨h1, h2⟩ | ⟨r, h1, h2, h3⟩
  · exact Or.inl ⟨h1, fun p hp h => h2 p hp ((want_iff hd1).mp h).1⟩
  · exact Or.inr ⟨r, h1, h2, (want_iff hd1).mpr ⟨h3, (hl r h1).2⟩⟩

example : F2U.random_prim (fun _ => ok 5#64) 4 true [[0x1f#64], [0x11#64], [0x19#64]] = ok [0x19#64] := by decide +kernel

/-- For every irreducible polynomial of degree 31 the test is undefined (the totient overflows); each of them is
primitive, 2^31 - 1 being prime. -/
theorem C62_violated_31 {tm : TrimMask} (H : ∀ k, (tm k).Sat True fun _ => True) {f : F2P} (hf : Canon f) (hirr : Irreducible (toPoly f))
    (hd : (toPoly f).natDegree = 31) : F2U.is_primitive tm f = ub := by
  have hx : IsUnit (AdjoinRoot.root (toPoly f)) := by
    rw [F2U.isUnit_root_iff]
    intro h0
    have h1 := (irreducible_X (R := ZMod 2)).associated_of_dvd hirr (X_dvd_iff.mpr h0)
    have := degree_eq_degree_of_associated h1
    rw [degree_X, degree_eq_natDegree hirr.ne_zero, hd] at this
    exact absurd this (by decide)
  unfold F2U.is_primitive
  obtain ⟨g, h1, b, h2, h3⟩ := F2U.gcd_ne (m := toPoly f) canon_x hf rfl
  rw [toPoly_x, AdjoinRoot.mk_X] at h3
  obtain ⟨r1, h4, -⟩ := F2Mod.mk'_ok canon_one.good hf rfl hirr.ne_zero
  obtain ⟨r2, h5, -⟩ := F2Mod.mk'_ok canon_x.good hf rfl hirr.ne_zero
  rw [h1, ok_bind, h2, ok_bind, if_neg (by rw [h3]; simpa using hx), h4, ok_bind, h5, ok_bind, totient_ub H hf hirr hd]
  rfl

theorem primSearch_imp {tm : TrimMask} {d : Int} {b : Bool} : ∀ (k : ℕ) (f r : F2P), Canon f → F2U.primSearch tm d b k f = ok r →
    Canon r ∧ ((toPoly r).natDegree : Int) = d ∧ F2U.primTest tm b r = ok true := by
  intro k
  induction k with
  | zero => intro f r _ h; simp [F2U.primSearch] at h
  | succ k ih =>
    intro f r hf h
    unfold F2U.primSearch at h
    rw [find_degree_ok, ok_bind] at h
    split at h
    · next hd =>
      obtain ⟨c, hc, h⟩ := bind_eq_ok.mp h
      cases c with
      | true => simp at h; subst h; exact ⟨hf, hd, hc⟩
      | false =>
        simp only [Bool.false_eq_true, if_false] at h
        obtain ⟨s, hs, -, hsc⟩ := increment_ok hf
        rw [hs, ok_bind] at h
        exact ih s r hsc h
    · simp at h

/-- The search for a primitive irreducible polynomial of degree 31 never returns one. -/
theorem C79_violated_search (M : ℕ → BitVec 64) : ∀ r, F2U.find_prim (fun k => ok (M k)) 31 true ≠ ok r := by
  intro r h
  unfold F2U.find_prim at h
  obtain ⟨r1, h1, h⟩ := bind_eq_ok.mp h
  obtain ⟨r2, h2, h⟩ := bind_eq_ok.mp h
  rw [if_neg (by norm_num)] at h
  have e1 : r1 = [0x80000000#64] := by
    rw [show set_bit zero 31 = ok [0x80000000#64] by decide +kernel] at h1; cases h1; rfl
  subst e1
  have e2 : r2 = [0x80000001#64] := by
    rw [show set_bit [0x80000000#64] 0 = ok [0x80000001#64] by decide +kernel] at h2; cases h2; rfl
  subst e2
  obtain ⟨hc, hd, ht⟩ := primSearch_imp _ _ _ (canon_single _) h
  have hd : (toPoly r).natDegree = 31 := by omega
  unfold F2U.primTest at ht
  obtain ⟨b, hb, ht⟩ := bind_eq_ok.mp ht
  cases b with
  | false => simp at ht
  | true =>
    simp only [if_true] at ht
    obtain ⟨b, hb', hirr⟩ := C54_is_irreducible_total M hc (by rw [hd]; decide)
    rw [hb'] at ht
    cases ht
    rw [C62_violated_31 (fun _ => by rw [Sat_ok]; trivial) hc (hirr.mp rfl) hd] at hb
    cases hb

end Spffl.Props
