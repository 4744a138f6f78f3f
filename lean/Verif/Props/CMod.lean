/-
Property C41: residue rings of polynomials over F_p (fp_polymod_t) and over F_2[t]/(m) (f2n_polymod_t); and the
polynomial properties C36, C38, C39, C40 for fpn_poly_t, whose coefficients are fp_polymod_t.
-/
import Verif.Proof.CMod

namespace Spffl.Props
open Res Polynomial CPoly
namespace CM

/-- fp_polymod_t object `a` is a reduced representative of the class `x` of `F_p[X]/(M)`: its modulus member
denotes `M`, its residue member denotes a polynomial of degree below that of `M` in the class `x`. -/
abbrev FpM (p : ℕ) [Fact p.Prime] (M : (ZMod p)[X]) (a : CMod IntMod) (x : AdjoinRoot M) : Prop :=
  CMod.Rep (IntMod.Rep p) M a x

section fp
variable {p : ℕ} [hp : Fact p.Prime] {M : (ZMod p)[X]}

/-- Every class has a representative object, so the hypotheses below are satisfiable for every class. -/
theorem C41_exists (hM : M ≠ 0) (x : AdjoinRoot M) : ∃ a, FpM p M a x :=
  CMod.exists_rep (IntMod.exists_rep hp.out.pos) hM x

/-- An object represents only one class. -/
theorem C41_functional {a : CMod IntMod} {x y : AdjoinRoot M} (h : FpM p M a x) (h' : FpM p M a y) : x = y := by
  obtain ⟨f, hf, _, rfl⟩ := h.hr
  obtain ⟨g, hg, _, rfl⟩ := h'.hr
  rw [PRep.inj (fun h1 h2 => by rw [← h1.2.2.2, ← h2.2.2.2]) hf hg]

/-- C41: construction reduces; a zero modulus throws. -/
theorem C41_construct (hb : p ≤ 46341) {r m : CPoly IntMod} {f : (ZMod p)[X]} (hr : PRep (IntMod.Rep p) r f)
    (hm : PRep (IntMod.Rep p) m M) :
    (M ≠ 0 → (CMod.mk' IntMod.cops r m).Ok (fun a => FpM p M a (AdjoinRoot.mk M f))) ∧
    (M = 0 → CMod.mk' IntMod.cops r m = throw) := by
  have H := IntMod.cops_ref hp.out.two_le hb
  refine ⟨fun h => sat_false.mp (CMod.mk'_sat H hr hm h), ?_⟩
  rintro rfl; exact throws_false.mp (CMod.mk'_zero H hr hm)

/-- C41: ring operations. -/
theorem C41_ring (hb : p ≤ 46341) {a b : CMod IntMod} {x y : AdjoinRoot M} (ha : FpM p M a x) (hb' : FpM p M b y) :
    (CMod.add IntMod.cops a b).Ok (fun r => FpM p M r (x + y)) ∧
    (CMod.sub IntMod.cops a b).Ok (fun r => FpM p M r (x - y)) ∧
    (CMod.mul IntMod.cops a b).Ok (fun r => FpM p M r (x * y)) ∧
    (CMod.eq IntMod.cops a b).Ok (fun r => r = true ↔ x = y) ∧
    (∀ v : Int, InInt v → (CMod.psub IntMod.cops a v).Ok (fun r => FpM p M r (v : AdjoinRoot M))) := by
  have H := IntMod.cops_ref hp.out.two_le hb
  exact ⟨sat_false.mp (CMod.add_sat H ha hb'), sat_false.mp (CMod.sub_sat H ha hb'), sat_false.mp (CMod.mul_sat H ha hb'),
    sat_false.mp (CMod.eq_sat H ha hb'), fun v hv => sat_false.mp (CMod.psub_sat H ha hv)⟩

/-- C41: reciprocals and division.  `recip` fails exactly on non-units, division by a non-unit throws. -/
theorem C41_div (hb : p ≤ 46341) {a b : CMod IntMod} {x y : AdjoinRoot M} (ha : FpM p M a x) (hb' : FpM p M b y) :
    (IsUnit y → (CMod.recip IntMod.cops b).Ok (fun o => ∃ i z, o = some i ∧ FpM p M i z ∧ y * z = 1)) ∧
    (¬ IsUnit y → CMod.recip IntMod.cops b = ok none) ∧
    (∀ z, y * z = 1 → (CMod.div IntMod.cops a b).Ok (fun r => FpM p M r (x * z))) ∧
    (¬ IsUnit y → CMod.div IntMod.cops a b = throw) := by
  have H := IntMod.cops_ref hp.out.two_le hb
  obtain ⟨o, h1, h2⟩ := sat_false.mp (CMod.recip_sat H hb')
  refine ⟨fun hu => ⟨o, h1, ?_⟩, fun hu => ?_, fun z hz => sat_false.mp (CMod.div_sat H ha hb' hz),
    fun hu => throws_false.mp (CMod.div_throw H ha hb' hu)⟩
  · cases o with
    | none => exact absurd hu h2
    | some i => obtain ⟨z, h3, h4⟩ := h2; exact ⟨i, z, rfl, h3, h4⟩
  · cases o with
    | none => exact h1
    | some i => obtain ⟨z, h3, h4⟩ := h2; exact absurd (IsUnit.of_mul_eq_one _ h4) hu

/-- C41: powers. -/
theorem C41_exp (hb : p ≤ 46341) {a : CMod IntMod} {x : AdjoinRoot M} (ha : FpM p M a x) {e : ℕ}
    (he : (e : Int) ≤ INT_MAX) :
    (e ≠ 0 ∨ x ≠ 0 → (CMod.exp IntMod.cops a e).Ok (fun r => FpM p M r (x ^ e))) ∧
    (∀ y, 0 < e → x ≠ 0 → x * y = 1 → (CMod.exp IntMod.cops a (-(e : Int))).Ok (fun r => FpM p M r (y ^ e))) ∧
    (0 < e → (x = 0 ∨ ¬ IsUnit x) → CMod.exp IntMod.cops a (-(e : Int)) = throw) ∧
    (x = 0 → CMod.exp IntMod.cops a 0 = throw) := by
  have H := IntMod.cops_ref hp.out.two_le hb
  refine ⟨fun h => sat_false.mp (CMod.exp_nonneg_sat H ha he h), fun y h1 h2 h3 =>
    sat_false.mp (CMod.exp_neg_sat H ha he h1 h2 h3), fun h1 h2 => throws_false.mp (CMod.exp_neg_throw H ha he h1 h2), ?_⟩
  rintro rfl; exact throws_false.mp (CMod.exp_zero_throw H ha)

/-- C41: objects with different moduli are rejected by every binary operation. -/
theorem C41_mixed (hb : p ≤ 46341) {M' : (ZMod p)[X]} {a b : CMod IntMod} {x : AdjoinRoot M} {y : AdjoinRoot M'}
    (ha : FpM p M a x) (hb' : FpM p M' b y) (h : M ≠ M') :
    CMod.add IntMod.cops a b = throw ∧ CMod.sub IntMod.cops a b = throw ∧ CMod.mul IntMod.cops a b = throw ∧
    CMod.div IntMod.cops a b = throw ∧ CMod.mod IntMod.cops a b = throw ∧ CMod.lt IntMod.cops a b = throw := by
  have := throws_false.mp (CMod.check_throw (IntMod.cops_ref hp.out.two_le hb) ha hb' h)
  unfold CMod.add CMod.sub CMod.mul CMod.div CMod.mod CMod.lt
  simp [this]

/-- C41: multiplication by a non-negative `int`. -/
theorem C41_mulInt_partial (hb : p ≤ 46341) {a : CMod IntMod} {x : AdjoinRoot M} (ha : FpM p M a x) {k : Int}
    (hk : InInt k) (hk0 : 0 ≤ k) :
    (FpMod.mulInt a k).Ok (fun r => FpM p M r (x * (k : AdjoinRoot M))) := by
  have H := IntMod.cops_ref hp.out.two_le hb
  unfold FpMod.mulInt
  obtain ⟨f, hf, _, _⟩ := ha.hr
  obtain ⟨c, hc, hcr⟩ := hf.c0.rd
  rw [hc, ok_bind, hcr.1]
  exact sat_false.mp (CMod.mulIntP_sat H ha hp.out.pos hk0 hk)

/-- C41 fails for negative `int` factors not divisible by `p`: the object is returned unchanged. -/
theorem C41_violated_negative {a : CMod IntMod} {x : AdjoinRoot M} (ha : FpM p M a x) {k : Int} (hk : InInt k)
    (hk0 : k < 0) (hd : ¬ (p : Int) ∣ k) : FpMod.mulInt a k = ok a := by
  unfold FpMod.mulInt
  obtain ⟨f, hf, _, _⟩ := ha.hr
  obtain ⟨c, hc, hcr⟩ := hf.c0.rd
  rw [hc, ok_bind, hcr.1]
  exact CMod.mulIntP_neg (by exact_mod_cast hp.out.pos) hk0 hd hk

/-- C41 fails for multiplication by a scalar of F_p: always the residue is unchanged and the modulus is scaled. -/
theorem C41_violated_scalar (hb : p ≤ 46341) {a : CMod IntMod} {x : AdjoinRoot M} (ha : FpM p M a x) {c : IntMod}
    {z : ZMod p} (hc : IntMod.Rep p c z) :
    (CMod.mulScalar IntMod.cops a c).Ok (fun r => r.residue = a.residue ∧ PRep (IntMod.Rep p) r.modulus (M * C z)) := by
  unfold CMod.mulScalar
  refine (sat_false.mp (smul_sat (IntMod.cops_ref hp.out.two_le hb) ha.hm hc)).bind fun m hm => ?_
  rw [Ok_ok]; exact ⟨rfl, hm⟩

/-- C41: unary minus is right for constant residues and undefined for all others. -/
theorem C41_neg_partial (hb : p ≤ 46341) {a : CMod IntMod} {x : AdjoinRoot M} (ha : FpM p M a x) :
    (a.residue.degree = 0 → (CMod.neg IntMod.cops a).Ok (fun r => FpM p M r (-x))) ∧
    (0 < a.residue.degree → CMod.neg IntMod.cops a = ub) := by
  have H := IntMod.cops_ref hp.out.two_le hb
  exact ⟨fun h => sat_false.mp (CMod.neg_const_sat H ha h), fun h => CMod.neg_ub H ha h⟩

end fp

/-- `x` modulo `x^2 + 1` over F_3 -/
def ex : CMod IntMod := ⟨⟨1, [⟨0, 3⟩, ⟨1, 3⟩]⟩, ⟨2, [⟨1, 3⟩, ⟨0, 3⟩, ⟨1, 3⟩]⟩⟩

/-- x * x = -1 = 2 -/
example : ∃ r, CMod.mul IntMod.cops ex ex = ok r ∧ r.residue.degree = 0 ∧ r.residue.coeffs[0]? = some ⟨2, 3⟩ :=
  ⟨_, rfl, rfl, rfl⟩
/-- 1 / x = 2 x -/
example : ∃ r, CMod.recip IntMod.cops ex = ok (some r) ∧ r.residue.degree = 1 ∧ r.residue.coeffs[0]? = some ⟨0, 3⟩ ∧
    r.residue.coeffs[1]? = some ⟨2, 3⟩ := ⟨_, rfl, rfl, rfl, rfl⟩
/-- x^3 = -x, x^(-1) = -x -/
example : ∃ r, CMod.exp IntMod.cops ex (-1) = ok r ∧ r.residue.degree = 1 ∧ r.residue.coeffs[1]? = some ⟨2, 3⟩ :=
  ⟨_, rfl, rfl, rfl⟩
/-- 2 · x as an `int` multiple, and the two wrong multiples -/
example : (∃ r, FpMod.mulInt ex 5 = ok r ∧ r.residue.coeffs[1]? = some ⟨2, 3⟩) ∧ FpMod.mulInt ex (-1) = ok ex ∧
    (∃ r, CMod.mulScalar IntMod.cops ex ⟨2, 3⟩ = ok r ∧ r.residue = ex.residue ∧ CMod.add IntMod.cops r ex = throw) ∧
    CMod.neg IntMod.cops ex = ub :=
  ⟨⟨_, rfl, rfl⟩, by decide +kernel, ⟨_, rfl, rfl, by decide +kernel⟩, by decide +kernel⟩

/-- f2n_polymod_t object `a` represents the class `x` of `K[X]/(M)`, `K = F_2[t]/(m)`. -/
abbrev F2nM (m : (ZMod 2)[X]) [Fact (Irreducible m)] (M : (AdjoinRoot m)[X]) (a : CMod F2Mod) (x : AdjoinRoot M) : Prop :=
  CMod.Rep (F2Mod.Rep m) M a x

/-- The same for f2n_polymod_t. -/
theorem C41_f2n {m : (ZMod 2)[X]} [hm : Fact (Irreducible m)] {M : (AdjoinRoot m)[X]} {a b : CMod F2Mod}
    {x y : AdjoinRoot M} (ha : F2nM m M a x) (hb : F2nM m M b y) :
    (CMod.add F2Mod.cops a b).Ok (fun r => F2nM m M r (x + y)) ∧
    (CMod.sub F2Mod.cops a b).Ok (fun r => F2nM m M r (x - y)) ∧
    (CMod.mul F2Mod.cops a b).Ok (fun r => F2nM m M r (x * y)) ∧
    (CMod.eq F2Mod.cops a b).Ok (fun r => r = true ↔ x = y) ∧
    (∀ z, y * z = 1 → (CMod.div F2Mod.cops a b).Ok (fun r => F2nM m M r (x * z))) ∧
    (¬ IsUnit y → CMod.div F2Mod.cops a b = throw) ∧
    (∀ e : ℕ, (e : Int) ≤ INT_MAX → (e ≠ 0 ∨ x ≠ 0) → (CMod.exp F2Mod.cops a e).Ok (fun r => F2nM m M r (x ^ e))) ∧
    (0 < a.residue.degree → CMod.neg F2Mod.cops a = ub) := by
  have H := F2Mod.cops_ref hm.out.ne_zero
  exact ⟨sat_false.mp (CMod.add_sat H ha hb), sat_false.mp (CMod.sub_sat H ha hb), sat_false.mp (CMod.mul_sat H ha hb),
    sat_false.mp (CMod.eq_sat H ha hb), fun z hz => sat_false.mp (CMod.div_sat H ha hb hz),
    fun hu => throws_false.mp (CMod.div_throw H ha hb hu), fun e he h => sat_false.mp (CMod.exp_nonneg_sat H ha he h),
    fun h => CMod.neg_ub H ha h⟩

/-- θ·x modulo x^2 + x + θ over F_4 -/
def ex4 : CMod F2Mod := ⟨⟨1, [⟨[0], [7]⟩, ⟨[2], [7]⟩]⟩, ⟨2, [⟨[2], [7]⟩, ⟨[1], [7]⟩, ⟨[1], [7]⟩]⟩⟩

example : ∃ r, CMod.mul F2Mod.cops ex4 ex4 = ok r ∧ r.residue.degree = 1 ∧ r.residue.coeffs[1]? = some ⟨[3], [7]⟩ ∧
    r.residue.coeffs[0]? = some ⟨[1], [7]⟩ := ⟨_, rfl, rfl, rfl, rfl⟩

/-! ### fpn_poly_t: polynomials over F_p[t]/(M).  Subtraction of a polynomial of larger degree applies unary minus to
coefficients, which is undefined for non-constant residues; `Sat True` below allows undefined behaviour, but
neither a wrong value nor an exception. -/

/-- C36 for fpn_poly_t. -/
theorem C36_fpn {p : ℕ} [hp : Fact p.Prime] (hb : p ≤ 46341) {M : (ZMod p)[X]} (hM : M ≠ 0) {a b : CPoly (CMod IntMod)}
    {f g : (AdjoinRoot M)[X]} (ha : PRep (FpM p M) a f) (hb' : PRep (FpM p M) b g) :
    (CPoly.add FpMod.cops a b).Ok (fun r => PRep (FpM p M) r (f + g)) ∧
    (CPoly.mul FpMod.cops a b).Ok (fun r => PRep (FpM p M) r (f * g)) ∧
    (CPoly.eq FpMod.cops a b).Ok (fun r => r = true ↔ f = g) ∧
    (CPoly.sub FpMod.cops a b).Sat True (fun r => PRep (FpM p M) r (f - g)) ∧
    (g.natDegree ≤ f.natDegree → (CPoly.sub FpMod.cops a b).Ok (fun r => PRep (FpM p M) r (f - g))) := by
  have H := FpMod.copsNeg_ref (p := p) hb hM
  have e1 := add_sat H ha hb'
  have e2 := mul_sat H ha hb'
  have e3 := eq_sat H ha hb'
  unfold FpMod.copsNeg at e1 e2 e3
  rw [add_swap] at e1; rw [mul_swap] at e2; rw [eq_swap] at e3
  refine ⟨sat_false.mp e1, sat_false.mp e2, sat_false.mp e3, sub_sat (FpMod.cops_ref hb hM) ha hb', fun hd => ?_⟩
  have e4 := sub_sat H ha hb'
  unfold FpMod.copsNeg at e4
  rw [sub_swap _ _ _ _ (by rw [← ha.deg, ← hb'.deg]; exact hd)] at e4
  exact sat_false.mp e4

/-- the constant 0 and the polynomial (t)·x over F_3[t]/(t^2+1) -/
def exz : CPoly (CMod IntMod) := ⟨0, [⟨⟨0, [⟨0, 3⟩]⟩, ex.modulus⟩]⟩
def exl : CPoly (CMod IntMod) := ⟨1, [⟨⟨0, [⟨0, 3⟩]⟩, ex.modulus⟩, ex]⟩

example : (∃ r, CPoly.mul FpMod.cops exl exl = ok r ∧ r.degree = 2) ∧ (∃ r, CPoly.sub FpMod.cops exl exz = ok r ∧
    r.degree = 1) := ⟨⟨_, rfl, rfl⟩, ⟨_, rfl, rfl⟩⟩

/-- C36 fails for fpn_poly_t: 0 - t·x is undefined. -/
theorem C36_fpn_violated : CPoly.sub FpMod.cops exz exl = ub := by decide +kernel

/-- C38 for fpn_poly_t: total. -/
theorem C38_fpn {p : ℕ} [hp : Fact p.Prime] (hb : p ≤ 46341) {M : (ZMod p)[X]} (hM : M ≠ 0) {a b : CPoly (CMod IntMod)}
    {f g : (AdjoinRoot M)[X]} (ha : PRep (FpM p M) a f) (hb' : PRep (FpM p M) b g) :
    (g = 0 → CPoly.quot_and_rem FpMod.cops a b = throw) ∧
    (g ≠ 0 → IsUnit g.leadingCoeff → (CPoly.quot_and_rem FpMod.cops a b).Ok (fun s => ∃ q r, PRep (FpM p M) s.1 q ∧
      PRep (FpM p M) s.2 r ∧ f = q * g + r ∧ r.degree < g.degree)) ∧
    (g ≠ 0 → f ≠ 0 → g.natDegree ≤ f.natDegree → ¬ IsUnit g.leadingCoeff →
      CPoly.quot_and_rem FpMod.cops a b = throw) := by
  have H := FpMod.copsNeg_ref (p := p) hb hM
  have e : CPoly.quot_and_rem FpMod.cops a b = CPoly.quot_and_rem FpMod.copsNeg a b := (quot_and_rem_swap _ _ _ _).symm
  rw [e]
  refine ⟨?_, fun h1 h2 => sat_false.mp (quot_and_rem_sat H ha hb' h1 h2), fun h1 h2 h3 h4 =>
    throws_false.mp (quot_and_rem_nonunit H ha hb' h1 h2 (by rw [← ha.deg, ← hb'.deg]; exact h3) h4)⟩
  rintro rfl; exact throws_false.mp (quot_and_rem_zero H ha hb')

example : ∃ s, CPoly.quot_and_rem FpMod.cops exl exl = ok s ∧ s.1.degree = 0 ∧ s.2.degree = 0 := ⟨_, rfl, rfl, rfl⟩

/-- C39 for fpn_poly_t over a field: `gcd` is total; `ext_gcd` is right up to undefined behaviour. -/
theorem C39_fpn {p : ℕ} [hp : Fact p.Prime] (hb : p ≤ 46341) {M : (ZMod p)[X]} (hM : Irreducible M)
    {a b : CPoly (CMod IntMod)} {f g : (AdjoinRoot M)[X]} (ha : PRep (FpM p M) a f) (hb' : PRep (FpM p M) b g) :
    (CPoly.gcd FpMod.cops a b).Ok (fun r => ∃ h, PRep (FpM p M) r h ∧ h ∣ f ∧ h ∣ g ∧ ∀ k, k ∣ f → k ∣ g → k ∣ h) ∧
    (g ≠ 0 → (CPoly.ext_gcd FpMod.cops a b).Sat True (fun r => ∃ h u v, PRep (FpM p M) r.1 h ∧ PRep (FpM p M) r.2.1 u ∧
      PRep (FpM p M) r.2.2 v ∧ h ∣ f ∧ h ∣ g ∧ (∀ k, k ∣ f → k ∣ g → k ∣ h) ∧ h = f * u + g * v)) := by
  haveI : Fact (Irreducible M) := ⟨hM⟩
  have H := FpMod.copsNeg_ref (p := p) hb hM.ne_zero
  have H' := FpMod.cops_ref (p := p) hb hM.ne_zero
  have e : CPoly.gcd FpMod.cops a b = CPoly.gcd FpMod.copsNeg a b := (gcd_swap _ _ _ _).symm
  rw [e]
  exact ⟨sat_false.mp ((gcd_sat (K := AdjoinRoot M) H ha hb').mono fun _ ⟨h, h1, h2⟩ => ⟨h, h1, h2.1, h2.2.1, h2.2.2⟩),
    fun hg => (ext_gcd_sat (K := AdjoinRoot M) H' ha hb' hg).mono
    fun _ ⟨h, u, v, h1, h2, h3, h4, h5⟩ => ⟨h, u, v, h1, h2, h3, h4.1, h4.2.1, h4.2.2, h5⟩⟩

example : ∃ r, CPoly.gcd FpMod.cops exl exl = ok r ∧ r.degree = 1 := ⟨_, rfl, rfl⟩

/-- C40 for fpn_poly_t: evaluation. -/
theorem C40_fpn_eval {p : ℕ} [hp : Fact p.Prime] (hb : p ≤ 46341) {M : (ZMod p)[X]} (hM : M ≠ 0)
    {a : CPoly (CMod IntMod)} {f : (AdjoinRoot M)[X]} (ha : PRep (FpM p M) a f) {c x} (hc : FpM p M c x) :
    (CPoly.eval FpMod.cops a c).Ok (fun r => FpM p M r (f.eval x)) := by
  have e : CPoly.eval FpMod.cops a c = CPoly.eval FpMod.copsNeg a c := (eval_swap _ _ _ _).symm
  rw [e]; exact sat_false.mp (eval_sat (FpMod.copsNeg_ref (p := p) hb hM) ha hc)

example : ∃ r, CPoly.eval FpMod.cops exl ex = ok r ∧ r.residue.degree = 0 ∧ r.residue.coeffs[0]? = some ⟨2, 3⟩ :=
  ⟨_, rfl, rfl, rfl⟩

/-- C40 fails for the derivative of fpn_poly_t, because of scalar multiplication (C41_violated_scalar): the derivative
of t·x^2 over F_3[t]/(t^2+1) comes out with mixed moduli, so that adding it to itself is fine but adding the
original polynomial throws. -/
theorem C40_fpn_deriv_violated : ∃ a d, CPoly.mul FpMod.cops exl exl = ok a ∧ CPoly.deriv FpMod.cops a = ok d ∧
    CPoly.add FpMod.cops d a = throw := ⟨_, _, rfl, rfl, by decide +kernel⟩

end CM
end Spffl.Props
