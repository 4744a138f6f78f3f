/-
Properties C36-C40: polynomials over a coefficient ring, for the classes fp_poly_t (coefficients `ZMod m`),
f2n_poly_t (coefficients `F2[x]/(m)`) and q_poly_t (coefficients `ℚ`).

`PRep rep p f` says that the object `p` denotes the polynomial `f`: its `degree` member is the true degree of
`f` and the first `degree + 1` slots of its array hold the coefficients of `f` (so the leading slot is non-zero
unless `f = 0`).  `Sat False` means "returns normally with"; `Sat True`, used for rationals, additionally allows
undefined behaviour (signed overflow in the coefficient arithmetic), never a wrong value or an exception.
-/
import Verif.Proof.CPoly
import Verif.Proof.CoefInst
import Verif.Proof.IntRat

namespace Spffl.Props
open Res Polynomial CPoly
namespace CP

/-- fp_poly_t object `p` denotes `f`. -/
abbrev Fp (m : ℕ) (p : CPoly IntMod) (f : (ZMod m)[X]) : Prop := PRep (IntMod.Rep m) p f
/-- f2n_poly_t object `p` denotes `f`. -/
abbrev F2n (m : (ZMod 2)[X]) (p : CPoly F2Mod) (f : (AdjoinRoot m)[X]) : Prop := PRep (F2Mod.Rep m) p f
/-- q_poly_t object `p` denotes `f`. -/
abbrev Q (p : CPoly IntRat) (f : ℚ[X]) : Prop := PRep IntRat.Rep p f

/-- x^2 + 2x + 3 over F_7 as an object -/
def ex1 : CPoly IntMod := ⟨2, [⟨3, 7⟩, ⟨2, 7⟩, ⟨1, 7⟩]⟩
/-- 4x + 5 over F_7 -/
def ex2 : CPoly IntMod := ⟨1, [⟨5, 7⟩, ⟨4, 7⟩]⟩
/-- x - 1 over ℚ -/
def exq : CPoly IntRat := ⟨1, [⟨-1, 1⟩, ⟨1, 1⟩]⟩
/-- θ x + 1 over F_4 = F_2[θ]/(θ^2+θ+1) -/
def ex4 : CPoly F2Mod := ⟨1, [⟨[1], [7]⟩, ⟨[2], [7]⟩]⟩

/-- Every polynomial over `ZMod m` is denoted by some object: the hypotheses `Fp m a f` below are satisfiable
for every `f`. -/
theorem C36_fp_exists {m : ℕ} (hm : 0 < m) (f : (ZMod m)[X]) : ∃ p, Fp m p f :=
  exists_prep (IntMod.exists_rep hm) f

/-- An object denotes at most one polynomial, and its leading slot is non-zero unless it denotes a constant. -/
theorem C36_fp_meaning {m : ℕ} {p : CPoly IntMod} {f g : (ZMod m)[X]} (h : Fp m p f) :
    (Fp m p g → f = g) ∧ (0 < p.degree → ∃ c x, p.coeffs[p.degree]? = some c ∧ IntMod.Rep m c x ∧ x ≠ 0) := by
  refine ⟨fun h' => PRep.inj (fun h1 h2 => by rw [← h1.2.2.2, ← h2.2.2.2]) h h', fun hd => ?_⟩
  obtain ⟨c, hc, hr⟩ := h.co p.degree (by omega)
  refine ⟨c, _, hc, hr, ?_⟩
  rw [← h.deg]
  intro h0
  have : f = 0 := leadingCoeff_eq_zero.mp h0
  have h1 := h.deg
  rw [this, natDegree_zero] at h1; omega

/-- C36 for fp_poly_t: all moduli up to 46341 (products of residues fit an `int`), prime or not. -/
theorem C36_fp {m : ℕ} (hm2 : 2 ≤ m) (hm : m ≤ 46341) {a b : CPoly IntMod} {f g : (ZMod m)[X]} (ha : Fp m a f)
    (hb : Fp m b g) :
    (CPoly.add IntMod.cops a b).Ok (fun r => Fp m r (f + g)) ∧
    (CPoly.sub IntMod.cops a b).Ok (fun r => Fp m r (f - g)) ∧
    (CPoly.mul IntMod.cops a b).Ok (fun r => Fp m r (f * g)) ∧
    (CPoly.copy IntMod.cops a).Ok (fun r => Fp m r f) ∧
    (∀ {c x}, IntMod.Rep m c x →
      (CPoly.addConst IntMod.cops a c).Ok (fun r => Fp m r (f + C x)) ∧
      (CPoly.subConst IntMod.cops a c).Ok (fun r => Fp m r (f - C x)) ∧
      (CPoly.smul IntMod.cops a c).Ok (fun r => Fp m r (f * C x))) := by
  have H := IntMod.cops_ref hm2 hm
  exact ⟨sat_false.mp (add_sat H ha hb), sat_false.mp (sub_sat H ha hb), sat_false.mp (mul_sat H ha hb),
    sat_false.mp ((copy_sat ha).mono fun _ h => h.1), fun hc => ⟨sat_false.mp (addConst_sat H ha hc), sat_false.mp (subConst_sat H ha hc), sat_false.mp (smul_sat H ha hc)⟩⟩

example : CPoly.mul IntMod.cops ex1 ex2 = ok ⟨3, [⟨1, 7⟩, ⟨1, 7⟩, ⟨6, 7⟩, ⟨4, 7⟩]⟩ := by decide +kernel
example : CPoly.sub IntMod.cops ex1 ex1 = ok ⟨0, [⟨0, 7⟩, ⟨0, 7⟩, ⟨0, 7⟩]⟩ := by decide +kernel

/-- C36 for f2n_poly_t: every modulus polynomial, irreducible or not. -/
theorem C36_f2n {m : (ZMod 2)[X]} (hm : m ≠ 0) {a b : CPoly F2Mod} {f g : (AdjoinRoot m)[X]} (ha : F2n m a f)
    (hb : F2n m b g) :
    (CPoly.add F2Mod.cops a b).Ok (fun r => F2n m r (f + g)) ∧
    (CPoly.sub F2Mod.cops a b).Ok (fun r => F2n m r (f - g)) ∧
    (CPoly.mul F2Mod.cops a b).Ok (fun r => F2n m r (f * g)) ∧
    (CPoly.copy F2Mod.cops a).Ok (fun r => F2n m r f) ∧
    (∀ {c x}, F2Mod.Rep m c x →
      (CPoly.addConst F2Mod.cops a c).Ok (fun r => F2n m r (f + C x)) ∧
      (CPoly.subConst F2Mod.cops a c).Ok (fun r => F2n m r (f - C x)) ∧
      (CPoly.smul F2Mod.cops a c).Ok (fun r => F2n m r (f * C x))) := by
  have H := F2Mod.cops_ref hm
  exact ⟨sat_false.mp (add_sat H ha hb), sat_false.mp (sub_sat H ha hb), sat_false.mp (mul_sat H ha hb),
    sat_false.mp ((copy_sat ha).mono fun _ h => h.1), fun hc => ⟨sat_false.mp (addConst_sat H ha hc), sat_false.mp (subConst_sat H ha hc), sat_false.mp (smul_sat H ha hc)⟩⟩

example : CPoly.mul F2Mod.cops ex4 ex4 = ok ⟨2, [⟨[1], [7]⟩, ⟨[0], [7]⟩, ⟨[3], [7]⟩]⟩ := by decide +kernel

/-- C36 for q_poly_t: exact unless the coefficient arithmetic overflows. -/
theorem C36_q {a b : CPoly IntRat} {f g : ℚ[X]} (ha : Q a f) (hb : Q b g) :
    (CPoly.add IntRat.cops a b).Sat True (fun r => Q r (f + g)) ∧
    (CPoly.sub IntRat.cops a b).Sat True (fun r => Q r (f - g)) ∧
    (CPoly.mul IntRat.cops a b).Sat True (fun r => Q r (f * g)) ∧
    (CPoly.copy IntRat.cops a).Ok (fun r => Q r f) ∧
    (∀ {c x}, IntRat.Rep c x →
      (CPoly.addConst IntRat.cops a c).Sat True (fun r => Q r (f + C x)) ∧
      (CPoly.subConst IntRat.cops a c).Sat True (fun r => Q r (f - C x)) ∧
      (CPoly.smul IntRat.cops a c).Sat True (fun r => Q r (f * C x))) := by
  have H := IntRat.cops_ref
  exact ⟨add_sat H ha hb, sub_sat H ha hb, mul_sat H ha hb, sat_false.mp ((copy_sat ha).mono fun _ h => h.1), fun hc =>
    ⟨addConst_sat H ha hc, subConst_sat H ha hc, smul_sat H ha hc⟩⟩

example : CPoly.mul IntRat.cops exq ⟨1, [⟨1, 2⟩, ⟨2, 3⟩]⟩ = ok ⟨2, [⟨-1, 2⟩, ⟨-1, 6⟩, ⟨2, 3⟩]⟩ := by decide +kernel

/-- C36: comparisons and coefficient access for fp_poly_t.  `<` is the order "by degree, then by the topmost
differing coefficient". -/
theorem C36_fp_compare {m : ℕ} (hm2 : 2 ≤ m) (hm : m ≤ 46341) {a b : CPoly IntMod} {f g : (ZMod m)[X]}
    (ha : Fp m a f) (hb : Fp m b g) :
    (CPoly.eq IntMod.cops a b).Ok (fun r => r = true ↔ f = g) ∧
    (CPoly.lt IntMod.cops a b).Ok (fun r => r = true ↔ (f.natDegree < g.natDegree ∨ (f.natDegree = g.natDegree ∧
      ∃ i, (f.coeff i).val < (g.coeff i).val ∧ ∀ j, i < j → f.coeff j = g.coeff j))) ∧
    (∀ n : ℕ, (CPoly.get_coeff IntMod.cops a n).Ok (fun r => IntMod.Rep m r (f.coeff n))) ∧
    (∀ (n : ℕ) {c x}, IntMod.Rep m c x → (CPoly.set_coeff IntMod.cops a n c).Ok (fun r => Fp m r (f.update n x))) := by
  have H := IntMod.cops_ref hm2 hm
  refine ⟨sat_false.mp (eq_sat H ha hb), sat_false.mp ((lt_sat H ha hb).mono fun r hr => hr.trans ?_),
    fun n => sat_false.mp (get_coeff_sat H ha n), fun n c x hc => sat_false.mp (set_coeff_sat H ha n hc)⟩
  unfold polyLt
  refine or_congr_right (and_congr_right fun hd => ?_)
  unfold lexLt
  constructor
  · rintro ⟨i, hi, h1, h2⟩
    refine ⟨i, h1, fun j hj => ?_⟩
    rcases Nat.lt_or_ge j (f.natDegree + 1) with h | h
    · exact h2 j hj h
    · rw [coeff_eq_zero_of_natDegree_lt (by omega), coeff_eq_zero_of_natDegree_lt (by omega)]
  · rintro ⟨i, h1, h2⟩
    refine ⟨i, ?_, h1, fun j hj _ => h2 j hj⟩
    by_contra hc
    rw [coeff_eq_zero_of_natDegree_lt (p := f) (by omega), coeff_eq_zero_of_natDegree_lt (p := g) (by omega)] at h1
    omega

example : CPoly.lt IntMod.cops ex2 ex1 = ok true ∧ CPoly.set_coeff IntMod.cops ex1 2 ⟨0, 7⟩ =
    ok ⟨1, [⟨3, 7⟩, ⟨2, 7⟩, ⟨0, 7⟩]⟩ := by decide +kernel

/-- C36: powers of fp_poly_t objects of positive degree: non-negative exponents give the power, negative ones
throw. -/
theorem C36_fp_exp {m : ℕ} (hm2 : 2 ≤ m) (hm : m ≤ 46341) {a : CPoly IntMod} {f : (ZMod m)[X]} (ha : Fp m a f)
    (hd : 0 < f.natDegree) {e : Int} (he : InInt e) :
    if 0 ≤ e then (CPoly.exp IntMod.cops a e).Ok (fun r => Fp m r (f ^ e.toNat))
    else CPoly.exp IntMod.cops a e = throw := by
  have H := IntMod.cops_ref hm2 hm
  have hd' : 0 < a.degree := ha.deg ▸ hd
  unfold InInt at he
  split
  · rename_i h
    exact sat_false.mp (exp_pos_sat H ha hd' h (by omega))
  · rename_i h
    exact throws_false.mp (exp_neg_throw H ha hd' (by omega))

example : CPoly.exp IntMod.cops ex2 3 = ok ⟨3, [⟨6, 7⟩, ⟨6, 7⟩, ⟨2, 7⟩, ⟨1, 7⟩]⟩ := by decide +kernel

/-- C37, the part that holds: negation of constants. -/
theorem C37_fp_const_partial {m : ℕ} (hm2 : 2 ≤ m) (hm : m ≤ 46341) {a : CPoly IntMod} {f : (ZMod m)[X]}
    (ha : Fp m a f) (hd : f.natDegree = 0) :
    (CPoly.neg IntMod.cops a).Ok (fun r => Fp m r (-f) ∧
      (CPoly.add IntMod.cops r a).Ok (fun s => Fp m s 0)) := by
  have H := IntMod.cops_ref hm2 hm
  refine sat_false.mp ((neg_const_sat H ha (ha.deg ▸ hd)).mono fun r hr => ⟨hr, sat_false.mp ?_⟩)
  have := add_sat H hr ha
  rwa [neg_add_cancel] at this

example : CPoly.neg IntMod.cops ⟨0, [⟨3, 7⟩]⟩ = ok ⟨0, [⟨4, 7⟩]⟩ := by decide +kernel

/-- C37 fails for every non-constant polynomial over `ZMod m`: unary minus stores past the end of a one-element
array. -/
theorem C37_fp_violated {m : ℕ} (hm2 : 2 ≤ m) (hm : m ≤ 46341) {a : CPoly IntMod} {f : (ZMod m)[X]}
    (ha : Fp m a f) (hd : 0 < f.natDegree) : CPoly.neg IntMod.cops a = ub :=
  neg_ub (IntMod.cops_ref hm2 hm) ha (ha.deg ▸ hd)

example : CPoly.neg IntMod.cops ex2 = ub := by decide +kernel

/-- C37 fails for every non-constant f2n_poly_t. -/
theorem C37_f2n_violated {m : (ZMod 2)[X]} (hm : m ≠ 0) {a : CPoly F2Mod} {f : (AdjoinRoot m)[X]}
    (ha : F2n m a f) (hd : 0 < f.natDegree) : CPoly.neg F2Mod.cops a = ub :=
  neg_ub (F2Mod.cops_ref hm) ha (ha.deg ▸ hd)

example : CPoly.neg F2Mod.cops ex4 = ub := by decide +kernel

/-- C38 for fp_poly_t: any modulus. -/
theorem C38_fp {m : ℕ} (hm2 : 2 ≤ m) (hm : m ≤ 46341) {a b : CPoly IntMod} {f g : (ZMod m)[X]} (ha : Fp m a f)
    (hb : Fp m b g) :
    (g = 0 → CPoly.quot_and_rem IntMod.cops a b = throw) ∧
    (g ≠ 0 → IsUnit g.leadingCoeff → (CPoly.quot_and_rem IntMod.cops a b).Ok (fun s => ∃ q r, Fp m s.1 q ∧ Fp m s.2 r ∧
      f = q * g + r ∧ r.degree < g.degree)) ∧
    (g ≠ 0 → f ≠ 0 → g.natDegree ≤ f.natDegree → ¬ IsUnit g.leadingCoeff →
      CPoly.quot_and_rem IntMod.cops a b = throw) := by
  have H := IntMod.cops_ref hm2 hm
  refine ⟨?_, fun h1 h2 => sat_false.mp (quot_and_rem_sat H ha hb h1 h2), fun h1 h2 h3 h4 =>
    throws_false.mp (quot_and_rem_nonunit H ha hb h1 h2 (by rw [← ha.deg, ← hb.deg]; exact h3) h4)⟩
  rintro rfl; exact throws_false.mp (quot_and_rem_zero H ha hb)

example : ∃ q r, CPoly.quot_and_rem IntMod.cops ex1 ex2 = ok (q, r) ∧ q.degree = 1 ∧ r.degree = 0 := ⟨_, _, rfl, rfl, rfl⟩

/-- Over a prime modulus quotient and remainder are the mathematical ones. -/
theorem C38_fp_prime {p : ℕ} [Fact p.Prime] (hm : p ≤ 46341) {a b : CPoly IntMod} {f g : (ZMod p)[X]} (ha : Fp p a f)
    (hb : Fp p b g) (hg : g ≠ 0) :
    (CPoly.quot_and_rem IntMod.cops a b).Ok (fun s => Fp p s.1 (f / g) ∧ Fp p s.2 (f % g)) := by
  have H := IntMod.cops_ref (Fact.out : p.Prime).two_le hm
  refine sat_false.mp ((quot_and_rem_sat H ha hb hg (unit_lead hg)).mono ?_)
  rintro s ⟨q, r, h1, h2, h3, h4⟩
  obtain ⟨e1, e2⟩ := poly_div_mod_unique h3 h4
  exact ⟨e1 ▸ h1, e2 ▸ h2⟩

/-- C38 for f2n_poly_t: any modulus polynomial. -/
theorem C38_f2n {m : (ZMod 2)[X]} (hm : m ≠ 0) {a b : CPoly F2Mod} {f g : (AdjoinRoot m)[X]} (ha : F2n m a f)
    (hb : F2n m b g) :
    (g = 0 → CPoly.quot_and_rem F2Mod.cops a b = throw) ∧
    (g ≠ 0 → IsUnit g.leadingCoeff → (CPoly.quot_and_rem F2Mod.cops a b).Ok (fun s => ∃ q r, F2n m s.1 q ∧ F2n m s.2 r ∧
      f = q * g + r ∧ r.degree < g.degree)) ∧
    (g ≠ 0 → f ≠ 0 → g.natDegree ≤ f.natDegree → ¬ IsUnit g.leadingCoeff →
      CPoly.quot_and_rem F2Mod.cops a b = throw) := by
  have H := F2Mod.cops_ref hm
  refine ⟨?_, fun h1 h2 => sat_false.mp (quot_and_rem_sat H ha hb h1 h2), fun h1 h2 h3 h4 =>
    throws_false.mp (quot_and_rem_nonunit H ha hb h1 h2 (by rw [← ha.deg, ← hb.deg]; exact h3) h4)⟩
  rintro rfl; exact throws_false.mp (quot_and_rem_zero H ha hb)

example : ∃ s, CPoly.quot_and_rem F2Mod.cops ⟨2, [⟨[1], [7]⟩, ⟨[0], [7]⟩, ⟨[1], [7]⟩]⟩ ex4 = ok s ∧ s.1.degree = 1 :=
  ⟨_, rfl, rfl⟩

/-- C38 for q_poly_t, up to overflow. -/
theorem C38_q {a b : CPoly IntRat} {f g : ℚ[X]} (ha : Q a f) (hb : Q b g) :
    (g ≠ 0 → (CPoly.quot_and_rem IntRat.cops a b).Sat True (fun s => Q s.1 (f / g) ∧ Q s.2 (f % g))) ∧
    (g = 0 → ∀ s, CPoly.quot_and_rem IntRat.cops a b ≠ ok s) := by
  have H := IntRat.cops_ref
  refine ⟨fun hg => (quot_and_rem_sat H ha hb hg (unit_lead hg)).mono ?_, ?_⟩
  · rintro s ⟨q, r, h1, h2, h3, h4⟩
    obtain ⟨e1, e2⟩ := poly_div_mod_unique h3 h4
    exact ⟨e1 ▸ h1, e2 ▸ h2⟩
  · rintro rfl s h
    rcases quot_and_rem_zero H ha hb with h' | ⟨_, h'⟩ <;> rw [h] at h' <;> cases h'

example : CPoly.quot_and_rem IntRat.cops ⟨2, [⟨-1, 1⟩, ⟨0, 1⟩, ⟨1, 1⟩]⟩ exq =
    ok (⟨1, [⟨1, 1⟩, ⟨1, 1⟩]⟩, ⟨0, [⟨0, 1⟩, ⟨0, 1⟩, ⟨0, 1⟩]⟩) := by decide +kernel

/-- C39 for fp_poly_t over a prime field: `gcd` always returns a greatest common divisor. -/
theorem C39_fp_gcd {p : ℕ} [Fact p.Prime] (hm : p ≤ 46341) {a b : CPoly IntMod} {f g : (ZMod p)[X]} (ha : Fp p a f)
    (hb : Fp p b g) :
    (CPoly.gcd IntMod.cops a b).Ok (fun r => ∃ h, Fp p r h ∧ h ∣ f ∧ h ∣ g ∧ ∀ k, k ∣ f → k ∣ g → k ∣ h) :=
  sat_false.mp ((gcd_sat (IntMod.cops_ref (Fact.out : p.Prime).two_le hm) ha hb).mono fun _ ⟨h, h1, h2⟩ =>
    ⟨h, h1, h2.1, h2.2.1, h2.2.2⟩)

example : ∃ r, CPoly.gcd IntMod.cops ⟨2, [⟨6, 7⟩, ⟨0, 7⟩, ⟨1, 7⟩]⟩ ⟨2, [⟨1, 7⟩, ⟨2, 7⟩, ⟨1, 7⟩]⟩ = ok r ∧ r.degree = 1 :=
  ⟨_, rfl, rfl⟩

/-- C39 for fp_poly_t: the extended algorithm, for a non-zero second argument. -/
theorem C39_fp_bezout {p : ℕ} [Fact p.Prime] (hm : p ≤ 46341) {a b : CPoly IntMod} {f g : (ZMod p)[X]} (ha : Fp p a f)
    (hb : Fp p b g) (hg : g ≠ 0) :
    (CPoly.ext_gcd IntMod.cops a b).Ok (fun r => ∃ h u v, Fp p r.1 h ∧ Fp p r.2.1 u ∧ Fp p r.2.2 v ∧
      h ∣ f ∧ h ∣ g ∧ (∀ k, k ∣ f → k ∣ g → k ∣ h) ∧ h = f * u + g * v) :=
  sat_false.mp ((ext_gcd_sat (IntMod.cops_ref (Fact.out : p.Prime).two_le hm) ha hb hg).mono
    fun _ ⟨h, u, v, h1, h2, h3, h4, h5⟩ => ⟨h, u, v, h1, h2, h3, h4.1, h4.2.1, h4.2.2, h5⟩)

example : ∃ r, CPoly.ext_gcd IntMod.cops ex1 ex2 = ok r ∧ r.1.degree = 0 := ⟨_, rfl, rfl⟩

/-- C39 fails for a zero second argument: `ext_gcd` throws although gcd(f, 0) = f·1 + 0·0. -/
theorem C39_fp_violated {m : ℕ} (hm2 : 2 ≤ m) (hm : m ≤ 46341) {a b : CPoly IntMod} {f : (ZMod m)[X]} (ha : Fp m a f)
    (hb : Fp m b 0) : CPoly.ext_gcd IntMod.cops a b = throw :=
  throws_false.mp (ext_gcd_zero (IntMod.cops_ref hm2 hm) ha hb)

example : CPoly.ext_gcd IntMod.cops ex1 ⟨0, [⟨0, 7⟩]⟩ = throw := by decide +kernel

/-- C39 for f2n_poly_t over a field (irreducible modulus). -/
theorem C39_f2n {m : (ZMod 2)[X]} (hm : Irreducible m) {a b : CPoly F2Mod} {f g : (AdjoinRoot m)[X]} (ha : F2n m a f)
    (hb : F2n m b g) :
    (CPoly.gcd F2Mod.cops a b).Ok (fun r => ∃ h, F2n m r h ∧ h ∣ f ∧ h ∣ g ∧ ∀ k, k ∣ f → k ∣ g → k ∣ h) ∧
    (g ≠ 0 → (CPoly.ext_gcd F2Mod.cops a b).Ok (fun r => ∃ h u v, F2n m r.1 h ∧ F2n m r.2.1 u ∧ F2n m r.2.2 v ∧
      h ∣ f ∧ h ∣ g ∧ (∀ k, k ∣ f → k ∣ g → k ∣ h) ∧ h = f * u + g * v)) := by
  haveI : Fact (Irreducible m) := ⟨hm⟩
  have H := F2Mod.cops_ref hm.ne_zero
  exact ⟨sat_false.mp ((gcd_sat (K := AdjoinRoot m) H ha hb).mono fun _ ⟨h, h1, h2⟩ => ⟨h, h1, h2.1, h2.2.1, h2.2.2⟩),
    fun hg => sat_false.mp ((ext_gcd_sat (K := AdjoinRoot m) H ha hb hg).mono
    fun _ ⟨h, u, v, h1, h2, h3, h4, h5⟩ => ⟨h, u, v, h1, h2, h3, h4.1, h4.2.1, h4.2.2, h5⟩)⟩

example : ∃ r, CPoly.gcd F2Mod.cops ex4 ex4 = ok r ∧ r.degree = 1 := ⟨_, rfl, rfl⟩

/-- C39 for q_poly_t, up to overflow. -/
theorem C39_q {a b : CPoly IntRat} {f g : ℚ[X]} (ha : Q a f) (hb : Q b g) :
    (CPoly.gcd IntRat.cops a b).Sat True (fun r => ∃ h, Q r h ∧ h ∣ f ∧ h ∣ g ∧ ∀ k, k ∣ f → k ∣ g → k ∣ h) ∧
    (g ≠ 0 → (CPoly.ext_gcd IntRat.cops a b).Sat True (fun r => ∃ h u v, Q r.1 h ∧ Q r.2.1 u ∧ Q r.2.2 v ∧
      h ∣ f ∧ h ∣ g ∧ (∀ k, k ∣ f → k ∣ g → k ∣ h) ∧ h = f * u + g * v)) :=
  ⟨(gcd_sat IntRat.cops_ref ha hb).mono fun _ ⟨h, h1, h2⟩ => ⟨h, h1, h2.1, h2.2.1, h2.2.2⟩,
    fun hg => (ext_gcd_sat IntRat.cops_ref ha hb hg).mono
    fun _ ⟨h, u, v, h1, h2, h3, h4, h5⟩ => ⟨h, u, v, h1, h2, h3, h4.1, h4.2.1, h4.2.2, h5⟩⟩

example : ∃ r, CPoly.gcd IntRat.cops ⟨2, [⟨-1, 1⟩, ⟨0, 1⟩, ⟨1, 1⟩]⟩ exq = ok r ∧ r.degree = 1 := ⟨_, rfl, rfl⟩

/-- C40 for fp_poly_t: any modulus; degrees must fit an `int`. -/
theorem C40_fp {m : ℕ} (hm2 : 2 ≤ m) (hm : m ≤ 46341) {a : CPoly IntMod} {f : (ZMod m)[X]} (ha : Fp m a f) :
    (∀ {c x}, IntMod.Rep m c x → (CPoly.eval IntMod.cops a c).Ok (fun r => IntMod.Rep m r (f.eval x))) ∧
    (InInt f.natDegree → (CPoly.deriv IntMod.cops a).Ok (fun r => Fp m r (derivative f))) := by
  have H := IntMod.cops_ref hm2 hm
  refine ⟨fun hc => sat_false.mp (eval_sat H ha hc), fun hi => sat_false.mp (deriv_sat H ha fun n hn hc =>
    IntMod.cops_mulNat hm hc ?_)⟩
  rw [ha.deg] at hi
  unfold InInt at hi ⊢; omega

example : CPoly.eval IntMod.cops ex1 ⟨5, 7⟩ = ok ⟨3, 7⟩ := by decide +kernel
example : ∃ r, CPoly.deriv IntMod.cops ex1 = ok r ∧ r.degree = 1 ∧ r.coeffs[0]? = some ⟨2, 7⟩ ∧
    r.coeffs[1]? = some ⟨2, 7⟩ := ⟨_, rfl, rfl, rfl, rfl⟩

/-- C40 for f2n_poly_t: any modulus polynomial. -/
theorem C40_f2n {m : (ZMod 2)[X]} (hm : m ≠ 0) {a : CPoly F2Mod} {f : (AdjoinRoot m)[X]} (ha : F2n m a f) :
    (∀ {c x}, F2Mod.Rep m c x → (CPoly.eval F2Mod.cops a c).Ok (fun r => F2Mod.Rep m r (f.eval x))) ∧
    (CPoly.deriv F2Mod.cops a).Ok (fun r => F2n m r (derivative f)) := by
  have H := F2Mod.cops_ref hm
  exact ⟨fun hc => sat_false.mp (eval_sat H ha hc), sat_false.mp (deriv_sat H ha fun n _ hc => F2Mod.cops_mulNat hc n)⟩

example : CPoly.eval F2Mod.cops ex4 ⟨[2], [7]⟩ = ok ⟨[2], [7]⟩ := by decide +kernel

/-- C40 for q_poly_t, up to overflow. -/
theorem C40_q {a : CPoly IntRat} {f : ℚ[X]} (ha : Q a f) :
    (∀ {c x}, IntRat.Rep c x → (CPoly.eval IntRat.cops a c).Sat True (fun r => IntRat.Rep r (f.eval x))) ∧
    (InInt f.natDegree → (CPoly.deriv IntRat.cops a).Sat True (fun r => Q r (derivative f))) := by
  refine ⟨fun hc => eval_sat IntRat.cops_ref ha hc, fun hi => deriv_sat IntRat.cops_ref ha fun n hn hc =>
    IntRat.cops_mulNat hc ?_⟩
  rw [ha.deg] at hi
  unfold InInt at hi ⊢; omega

example : CPoly.eval IntRat.cops exq ⟨1, 2⟩ = ok ⟨-1, 2⟩ := by decide +kernel

end CP
end Spffl.Props
