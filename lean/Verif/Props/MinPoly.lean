/-
Properties C65 and C85: minimal and characteristic polynomials of elements of finite fields.

`minpoly K x` is Mathlib's minimal polynomial of `x` over `K` and `(Algebra.lmul K L x).charpoly` is the
characteristic polynomial of multiplication by `x` on `L` as a `K`-linear map.  `k` bounds the rounds of the
`do ... while` loops; the theorems hold for every `k` from the degree of the modulus on, so the loops end.
-/
import Verif.Proof.MinPoly
import Verif.Props.PolyFactor
import Verif.Props.CMod

namespace Spffl.Props
open Res Polynomial CPoly CP CM F2P
namespace LA
open LinAlg

section f2
variable {m : (ZMod 2)[X]} [hm : Fact (Irreducible m)] {a : F2Mod} {x : AdjoinRoot m} {V : Prop}

/-- C65: the orbit polynomial stopped at the first repetition is the minimal polynomial, its coefficients being
those of a polynomial over F2. -/
theorem C65_orbit_min (ha : F2Mod.Rep m a x) :
    (f2_polymod_min_poly a).Ok (fun r => F2n m r ((minpoly (ZMod 2) x).map (algebraMap (ZMod 2) (AdjoinRoot m)))) := f2_polymod_min_poly_ok ha

/-- C65: the orbit polynomial over as many conjugates as the degree is the characteristic polynomial. -/
theorem C65_orbit_char (ha : F2Mod.Rep m a x) :
    (f2_polymod_char_poly a).Ok (fun r => F2n m r ((Algebra.lmul (ZMod 2) (AdjoinRoot m) x).charpoly.map (algebraMap (ZMod 2) (AdjoinRoot m)))) :=
  f2_polymod_char_poly_ok ha

/-- C65 in elementary terms: both results come from F2; the minimal polynomial is monic and irreducible, has the element
as a root and divides everything that has; the characteristic polynomial is monic of degree n, has the element as a
root and is a power of the minimal polynomial. -/
theorem C65_orbit_meaning (ha : F2Mod.Rep m a x) :
    (f2_polymod_min_poly a).Ok (fun r => ∃ g : (ZMod 2)[X], F2n m r (g.map (algebraMap (ZMod 2) (AdjoinRoot m))) ∧ g.Monic ∧ Irreducible g ∧
      aeval x g = 0 ∧ ∀ h : (ZMod 2)[X], aeval x h = 0 → g ∣ h) ∧
    (f2_polymod_char_poly a).Ok (fun r => ∃ g c : (ZMod 2)[X], F2n m r (c.map (algebraMap (ZMod 2) (AdjoinRoot m))) ∧ c.Monic ∧
      c.natDegree = m.natDegree ∧ aeval x c = 0 ∧ Irreducible g ∧ g.natDegree ∣ m.natDegree ∧ c = g ^ (m.natDegree / g.natDegree)) := by
  haveI : Finite (AdjoinRoot m) := Module.finite_of_finite (ZMod 2)
  have hi : IsIntegral (ZMod 2) x := Algebra.IsIntegral.isIntegral x
  have hfr : Module.finrank (ZMod 2) (AdjoinRoot m) = m.natDegree := by
    rw [(AdjoinRoot.powerBasis hm.out.ne_zero).finrank, AdjoinRoot.powerBasis_dim]
  refine ⟨(C65_orbit_min ha).mono fun r hr => ⟨_, hr, minpoly.monic hi, minpoly.irreducible hi, minpoly.aeval _ _, fun h => minpoly.dvd _ _⟩,
    (C65_orbit_char ha).mono fun r hr => ⟨minpoly (ZMod 2) x, _, hr, LinearMap.charpoly_monic _, ?_, ?_, minpoly.irreducible hi, ?_, ?_⟩⟩
  · rw [LinearMap.charpoly_natDegree, hfr]
  · rw [charpoly_mul, map_pow, minpoly.aeval, zero_pow]
    have hd := minpoly_natDegree_dvd (K := ZMod 2) x
    exact (Nat.div_pos (Nat.le_of_dvd Module.finrank_pos hd) (minpoly.natDegree_pos hi)).ne'
  · rw [← hfr]; exact minpoly_natDegree_dvd x
  · rw [charpoly_mul, hfr]

/-- C65: the number of conjugates is the degree of the minimal polynomial: the least positive `l` with `a^(2^l) = a`. -/
theorem C65_frobenius_length (ha : F2Mod.Rep m a x) (hI : (m.natDegree : Int) ≤ INT_MAX) {k : ℕ} (hk : m.natDegree ≤ k) :
    (f2_frobenius_length k a).Ok (fun l => l = ((minpoly (ZMod 2) x).natDegree : Int) ∧ 0 < l ∧ x ^ 2 ^ l.toNat = x ∧
      ∀ i : ℕ, 0 < i → x ^ 2 ^ i = x → l ≤ i) := by
  haveI : Finite (AdjoinRoot m) := Module.finite_of_finite (ZMod 2)
  have hi : IsIntegral (ZMod 2) x := Algebra.IsIntegral.isIntegral x
  have hfr : Module.finrank (ZMod 2) (AdjoinRoot m) = m.natDegree := by
    rw [(AdjoinRoot.powerBasis hm.out.ne_zero).finrank, AdjoinRoot.powerBasis_dim]
  have hle : (minpoly (ZMod 2) x).natDegree ≤ m.natDegree := hfr ▸ Nat.le_of_dvd Module.finrank_pos (minpoly_natDegree_dvd (K := ZMod 2) x)
  have hpos := minpoly.natDegree_pos hi
  have hfix := frob_fix_iff (K := ZMod 2) x
  simp only [ZMod.card] at hfix
  refine (sat_false.mp (f2_frobenius_length_sat ha (by omega) (hle.trans hk))).mono fun l hl => ?_
  subst hl
  refine ⟨rfl, by omega, ?_, fun i hi0 h => ?_⟩
  · rw [Int.toNat_natCast, hfix]
  · exact_mod_cast Nat.le_of_dvd hi0 ((hfix i).mp h)

/-- C65: the polynomials computed by linear algebra are the same. -/
theorem C65_kernel_min {tm : TrimMask} (H : ∀ k, (tm k).Sat V fun _ => True) (ha : F2Mod.Rep m a x) (hI : (m.natDegree : Int) < INT_MAX) {k : ℕ}
    (hk : m.natDegree ≤ k) : (f2_minimal_polynomial tm k a).Sat V (fun p => Canon p ∧ toPoly p = minpoly (ZMod 2) x) := by
  haveI : Finite (AdjoinRoot m) := Module.finite_of_finite (ZMod 2)
  have hfr : Module.finrank (ZMod 2) (AdjoinRoot m) = m.natDegree := by
    rw [(AdjoinRoot.powerBasis hm.out.ne_zero).finrank, AdjoinRoot.powerBasis_dim]
  have hle : (minpoly (ZMod 2) x).natDegree ≤ m.natDegree := hfr ▸ Nat.le_of_dvd Module.finrank_pos (minpoly_natDegree_dvd (K := ZMod 2) x)
  exact f2_minimal_polynomial_sat H ha (by omega) (hle.trans hk)

theorem C65_kernel_char {tm : TrimMask} (H : ∀ k, (tm k).Sat V fun _ => True) (ha : F2Mod.Rep m a x) (hI : (m.natDegree : Int) < INT_MAX) {k : ℕ}
    (hk : m.natDegree ≤ k) :
    (f2_characteristic_polynomial tm k a).Sat V (fun p => Canon p ∧ toPoly p = (Algebra.lmul (ZMod 2) (AdjoinRoot m) x).charpoly) :=
  f2_characteristic_polynomial_sat H ha hI hk

end f2

/-- In F2[x]/(x^4+x+1): x^3+x+1 has minimal polynomial x^4+x^3+1; x^2+x, in the subfield of 4 elements, has minimal
polynomial x^2+x+1 and characteristic polynomial its square. -/
example : f2_minimal_polynomial (fun _ => ok 0) 4 ⟨[0xb], [0x13]⟩ = ok [0x19] := by decide +kernel
example : f2_minimal_polynomial (fun _ => ok 0) 4 ⟨[6], [0x13]⟩ = ok [7] := by decide +kernel
example : f2_characteristic_polynomial (fun _ => ok 0) 4 ⟨[6], [0x13]⟩ = ok [0x15] := by decide +kernel
example : f2_frobenius_length 4 ⟨[6], [0x13]⟩ = ok 2 := by decide +kernel
example : f2_polymod_min_poly ⟨[6], [0x13]⟩ = ok (f2nOf 0x13 [1, 1, 1]) := by decide +kernel
example : f2_polymod_char_poly ⟨[6], [0x13]⟩ = ok (f2nOf 0x13 [1, 0, 1, 0, 1]) := by decide +kernel

/-- Without irreducibility the loop of the Frobenius length need not come back: the square of x modulo x^2 is 0 for
ever, so no number of rounds suffices. -/
theorem C65_reducible_loops (k : ℕ) : f2_frobenius_length k ⟨[2], [4]⟩ = timeout ∨ f2_frobenius_length k ⟨[2], [4]⟩ = ub := by
  have key : ∀ (k i : ℕ), frobLoop (fun x => F2Mod.mul x x) (fun x => do let e ← F2Mod.eq x ⟨[2], [4]⟩; ok !e) k (i : Int) (⟨[0], [4]⟩ : F2Mod) = timeout ∨
      frobLoop (fun x => F2Mod.mul x x) (fun x => do let e ← F2Mod.eq x ⟨[2], [4]⟩; ok !e) k (i : Int) (⟨[0], [4]⟩ : F2Mod) = ub := by
    intro k
    induction k with
    | zero => intro i; left; rfl
    | succ k ih =>
      intro i
      unfold frobLoop
      have e1 : F2Mod.mul ⟨[0], [4]⟩ ⟨[0], [4]⟩ = ok ⟨[0], [4]⟩ := by decide +kernel
      have e2 : F2Mod.eq ⟨[0], [4]⟩ ⟨[2], [4]⟩ = ok false := by decide +kernel
      simp only [e1, e2, ok_bind]
      by_cases h : InInt ((i : Int) + 1)
      · unfold iadd
        rw [chk_ok h, ok_bind]
        exact ih (i + 1)
      · right
        unfold iadd
        rw [chk_ub h]; rfl
  cases k with
  | zero => left; rfl
  | succ k =>
    have e1 : F2Mod.mul ⟨[2], [4]⟩ ⟨[2], [4]⟩ = ok ⟨[0], [4]⟩ := by decide +kernel
    have e2 : F2Mod.eq ⟨[0], [4]⟩ ⟨[2], [4]⟩ = ok false := by decide +kernel
    have e3 : iadd 0 1 = ok 1 := by decide
    unfold f2_frobenius_length frobLoop
    simp only [e1, e2, e3, ok_bind]
    exact key k 1

section fp
variable {p : ℕ} [hp : Fact p.Prime] {M : (ZMod p)[X]} [hM : Fact (Irreducible M)] {a : CMod IntMod} {x : AdjoinRoot M}

theorem fp_default (hb : p ≤ 46341) : ∃ z, IntMod.cops.psub ⟨0, 1⟩ 0 = ok z ∧ ∀ {c y}, IntMod.Rep p c y → (IntMod.cops.eq c z).Sat False fun _ => True := by
  refine ⟨⟨0, 1⟩, by decide, fun {c y} hc => ?_⟩
  show (IntMod.eq c ⟨0, 1⟩).Sat False _
  have h2 := hp.out.two_le
  unfold IntMod.eq IntMod.check_modulus
  rw [if_neg (by rw [hc.1]; omega)]
  have e1 : (1 : Int) ≠ 0 := by decide
  simp only [ok_bind, e1, if_false]
  split
  · trivial
  · split <;> trivial

/-- C85 over F_p: the minimal polynomial.  Missing: p above 46341, where products of residues overflow. -/
theorem C85_fp_min_partial (hb : p ≤ 46341) (ha : FpM p M a x) (hI : (M.natDegree : Int) < INT_MAX) {k : ℕ} (hk : M.natDegree ≤ k) :
    (fp_minimal_polynomial k a).Ok (fun r => Fp p r (minpoly (ZMod p) x)) ∧
    (fp_characteristic_polynomial k a).Ok (fun r => Fp p r (Algebra.lmul (ZMod p) (AdjoinRoot M) x).charpoly) ∧
    (fp_frobenius_length k a).Ok (fun l => l = ((minpoly (ZMod p) x).natDegree : Int)) := by
  haveI : Finite (AdjoinRoot M) := Module.finite_of_finite (ZMod p)
  have hfr : Module.finrank (ZMod p) (AdjoinRoot M) = M.natDegree := by
    rw [(AdjoinRoot.powerBasis hM.out.ne_zero).finrank, AdjoinRoot.powerBasis_dim]
  have hle : (minpoly (ZMod p) x).natDegree ≤ M.natDegree := hfr ▸ Nat.le_of_dvd Module.finrank_pos (minpoly_natDegree_dvd (K := ZMod p) x)
  have h2 := hp.out.two_le
  have H := IntMod.cops_ref h2 hb
  obtain ⟨f, hf, _, _⟩ := ha.hr
  obtain ⟨c, hc, hcr⟩ := hf.c0
  have hrd : rd a.residue.coeffs 0 = ok c := by unfold rd; rw [hc]
  have hq : (Fintype.card (ZMod p) : Int) ≤ INT_MAX := by rw [ZMod.card]; unfold INT_MAX; omega
  have e1 : c.modulus = (Fintype.card (ZMod p) : Int) := by rw [ZMod.card]; exact hcr.1
  have hz := IntMod.mk'_ok (m := p) (r := 0) (by omega) (by unfold InInt; omega) (by decide)
  have ho := IntMod.mk'_ok (m := p) (r := 1) (by omega) (by unfold InInt; omega) (by decide)
  rw [Int.cast_zero] at hz
  rw [Int.cast_one] at ho
  have e2 : c.modulus = (p : Int) := hcr.1
  refine ⟨?_, ?_, ?_⟩
  · unfold fp_minimal_polynomial
    rw [hrd, ok_bind]
    refine (show (IntMod.mk' 0 c.modulus).Ok _ by rw [e2]; exact hz).bind fun zero hz => ?_
    refine (show (IntMod.mk' 1 c.modulus).Ok _ by rw [e2]; exact ho).bind fun one ho => ?_
    rw [e1]
    exact sat_false.mp (minimal_polynomial_sat H hz ho (fp_default hb) ha hq (by omega) (hle.trans hk))
  · unfold fp_characteristic_polynomial
    rw [hrd, ok_bind]
    refine (show (IntMod.mk' 0 c.modulus).Ok _ by rw [e2]; exact hz).bind fun zero hz => ?_
    refine (show (IntMod.mk' 1 c.modulus).Ok _ by rw [e2]; exact ho).bind fun one ho => ?_
    rw [e1]
    exact sat_false.mp (characteristic_polynomial_sat H hz ho (fp_default hb) ha hq hI hk)
  · unfold fp_frobenius_length
    rw [hrd, ok_bind, e1]
    exact sat_false.mp (frobenius_length_sat H ha hq (by omega) (hle.trans hk))

end fp

/-- 2x+1 modulo x^2+2 over F5 has minimal polynomial x^2+3x+4; the constant 3 has minimal polynomial x-3 = x+2 and
characteristic polynomial (x+2)^2. -/
example : fp_minimal_polynomial 2 ⟨fpOf 5 [1, 2], fpOf 5 [2, 0, 1]⟩ = ok (fpOf 5 [4, 3, 1]) := by decide +kernel
example : fp_minimal_polynomial 2 ⟨fpOf 5 [3], fpOf 5 [2, 0, 1]⟩ = ok (fpOf 5 [2, 1]) := by decide +kernel
example : fp_characteristic_polynomial 2 ⟨fpOf 5 [3], fpOf 5 [2, 0, 1]⟩ = ok (fpOf 5 [4, 4, 1]) := by decide +kernel

section f2n
variable {m : (ZMod 2)[X]} [hm : Fact (Irreducible m)] {M : (AdjoinRoot m)[X]} [hM : Fact (Irreducible M)] {a : CMod F2Mod} {x : AdjoinRoot M}

theorem f2n_default : ∃ z, F2Mod.cops.psub ⟨F2P.zero, F2P.one⟩ 0 = ok z ∧ ∀ {c y}, F2Mod.Rep m c y → (F2Mod.cops.eq c z).Sat False fun _ => True := by
  refine ⟨⟨F2P.zero, F2P.one⟩, by decide +kernel, fun {c y} hc => ?_⟩
  show (F2Mod.eq c ⟨F2P.zero, F2P.one⟩).Sat False _
  unfold F2Mod.eq
  rw [F2Mod.ne_ok hc.cr.ne_nil canon_zero.ne_nil, ok_bind]
  split
  · trivial
  · rw [F2Mod.ne_ok hc.cm.ne_nil canon_one.ne_nil, ok_bind]
    split <;> trivial

/-- C85 over F2[t]/(m).  Missing: degrees of m above 30, where the size of the field is not an `int`. -/
theorem C85_f2n_min_partial (hm30 : m.natDegree ≤ 30) (ha : F2nM m M a x) (hI : (M.natDegree : Int) < INT_MAX) {k : ℕ} (hk : M.natDegree ≤ k) :
    (f2npm_min_poly k a).Ok (fun r => F2n m r (minpoly (AdjoinRoot m) x)) ∧
    (f2npm_char_poly k a).Ok (fun r => F2n m r (Algebra.lmul (AdjoinRoot m) (AdjoinRoot M) x).charpoly) ∧
    (f2npm_froblen k a).Ok (fun l => l = ((minpoly (AdjoinRoot m) x).natDegree : Int)) := by
  haveI := finite_adjoin m
  letI := Fintype.ofFinite (AdjoinRoot m)
  haveI : Finite (AdjoinRoot M) := Module.finite_of_finite (AdjoinRoot m)
  have hfr : Module.finrank (AdjoinRoot m) (AdjoinRoot M) = M.natDegree := by
    rw [(AdjoinRoot.powerBasis hM.out.ne_zero).finrank, AdjoinRoot.powerBasis_dim]
  have hle : (minpoly (AdjoinRoot m) x).natDegree ≤ M.natDegree := hfr ▸ Nat.le_of_dvd Module.finrank_pos (minpoly_natDegree_dvd (K := AdjoinRoot m) x)
  have hm0 := hm.out.ne_zero
  have H := F2Mod.cops_ref (m := m) hm0
  have hcard : Fintype.card (AdjoinRoot m) = 2 ^ m.natDegree := F2nP.card_eq
  have hp30 : 2 ^ m.natDegree ≤ 2 ^ 30 := Nat.pow_le_pow_right (by norm_num) hm30
  have hq : (Fintype.card (AdjoinRoot m) : Int) ≤ INT_MAX := by
    rw [hcard]; unfold INT_MAX
    exact_mod_cast hp30.trans (by norm_num)
  obtain ⟨f, hf, _, _⟩ := ha.hr
  have hget := sat_false.mp (get_coeff_sat H hf 0)
  have hqq : (f2n_q a).Ok (fun q => q = (Fintype.card (AdjoinRoot m) : Int)) := by
    unfold f2n_q
    refine hget.bind fun c hc => ?_
    rw [find_degree_ok, ok_bind, hc.hm, F2P.ishl_one (by omega), Ok_ok, hcard, Nat.cast_pow]
    rfl
  have hpse : ∀ (c : F2Mod) (y : AdjoinRoot m), F2Mod.Rep m c y →
      (F2Mod.prime_subfield_element 0 c.modulus).Ok (fun z => F2Mod.Rep m z 0) ∧ (F2Mod.prime_subfield_element 1 c.modulus).Ok (fun z => F2Mod.Rep m z 1) := by
    intro c y hc
    have e0 : toPoly (F2P.ofInt 0) = 0 := toPoly_zero
    have e1 : toPoly (F2P.ofInt 1) = 1 := toPoly_one
    unfold F2Mod.prime_subfield_element
    exact ⟨(F2Mod.mk'_ok (r := F2P.ofInt 0) canon_zero.good hc.cm hc.hm hm0).mono fun z hz => by simpa [e0] using hz.1,
      (F2Mod.mk'_ok (r := F2P.ofInt 1) canon_one.good hc.cm hc.hm hm0).mono fun z hz => by simpa [e1] using hz.1⟩
  refine ⟨?_, ?_, ?_⟩
  · unfold f2npm_min_poly
    refine hget.bind fun c hc => (hpse c _ hc).1.bind fun zero hz => (hpse c _ hc).2.bind fun one ho => hqq.bind fun q hq' => ?_
    rw [hq']
    exact sat_false.mp (minimal_polynomial_sat H hz ho f2n_default ha hq (by omega) (hle.trans hk))
  · unfold f2npm_char_poly
    refine hget.bind fun c hc => (hpse c _ hc).1.bind fun zero hz => (hpse c _ hc).2.bind fun one ho => hqq.bind fun q hq' => ?_
    rw [hq']
    exact sat_false.mp (characteristic_polynomial_sat H hz ho f2n_default ha hq hI hk)
  · unfold f2npm_froblen
    refine hqq.bind fun q hq' => ?_
    rw [hq']
    exact sat_false.mp (frobenius_length_sat H ha hq (by omega) (hle.trans hk))

end f2n

/-- over F4, modulo y^2+y+t: the class of y has the modulus as minimal polynomial; the constant t+1 has characteristic
polynomial (y+t+1)^2 = y^2+t. -/
example : f2npm_min_poly 2 ⟨f2nOf 7 [0, 1], f2nOf 7 [2, 1, 1]⟩ = ok (f2nOf 7 [2, 1, 1]) := by decide +kernel
example : f2npm_char_poly 2 ⟨f2nOf 7 [3], f2nOf 7 [2, 1, 1]⟩ = ok (f2nOf 7 [2, 0, 1]) := by decide +kernel

end LA
end Spffl.Props
