import Verif.Proof.FpnMod
import Verif.Props.CMod

/-!
# C41 for fpn_polymod_t: residues of polynomials over F_p[t]/(M)
-/

namespace Spffl.Props
open Res Polynomial CPoly
namespace CM

section
variable {p : ℕ} [hp : Fact p.Prime] {M : (ZMod p)[X]} [hM : Fact (Irreducible M)] {N : (AdjoinRoot M)[X]}

/-- fpn_polymod_t object `a` represents the class `x` of `K[X]/(N)`, `K = F_p[t]/(M)`. -/
abbrev FpnM (p : ℕ) [Fact p.Prime] (M : (ZMod p)[X]) [Fact (Irreducible M)] (N : (AdjoinRoot M)[X])
    (a : CMod (CMod IntMod)) (x : AdjoinRoot N) : Prop := CMod.Rep (FpM p M) N a x

/-- Every class has a representative object. -/
theorem C41_fpn_exists (hN : N ≠ 0) (x : AdjoinRoot N) : ∃ a, FpnM p M N a x :=
  CMod.exists_rep (C41_exists hM.out.ne_zero) hN x

/-- C41 for fpn_polymod_t: sums, products, equality and powers are those of the ring.  Differences, quotients and
negative powers are, unless they negate a coefficient that is not a constant, which is undefined
(`C41_fpn_violated_sub`); a difference never does so if the subtrahend has no larger degree.  Division by an element
that is not a unit never returns. -/
theorem C41_fpn_partial (hb : p ≤ 46341) {a b : CMod (CMod IntMod)} {x y : AdjoinRoot N} (ha : FpnM p M N a x)
    (hb' : FpnM p M N b y) :
    (CMod.add FpMod.cops a b).Ok (fun r => FpnM p M N r (x + y)) ∧
    (CMod.mul FpMod.cops a b).Ok (fun r => FpnM p M N r (x * y)) ∧
    (CMod.eq FpMod.cops a b).Ok (fun r => r = true ↔ x = y) ∧
    (∀ e : ℕ, (e : Int) ≤ INT_MAX → (e ≠ 0 ∨ x ≠ 0) → (CMod.exp FpMod.cops a e).Ok (fun r => FpnM p M N r (x ^ e))) ∧
    (CMod.sub FpMod.cops a b).Sat True (fun r => FpnM p M N r (x - y)) ∧
    (b.residue.degree ≤ a.residue.degree → (CMod.sub FpMod.cops a b).Ok (fun r => FpnM p M N r (x - y))) ∧
    (∀ z, y * z = 1 → (CMod.div FpMod.cops a b).Sat True (fun r => FpnM p M N r (x * z))) ∧
    (¬ IsUnit y → (CMod.div FpMod.cops a b).Throws True) ∧
    (∀ e : ℕ, 0 < e → (e : Int) ≤ INT_MAX → x ≠ 0 → ∀ z, x * z = 1 →
      (CMod.exp FpMod.cops a (-(e : Int))).Sat True (fun r => FpnM p M N r (z ^ e))) := by
  have H := FpMod.copsNeg_ref (p := p) hb hM.out.ne_zero
  have H' := FpMod.cops_ref (p := p) hb hM.out.ne_zero
  have e1 := CMod.add_sat (M := N) H ha hb'
  have e2 := CMod.mul_sat (M := N) H ha hb'
  have e3 := CMod.eq_sat (M := N) H ha hb'
  unfold FpMod.copsNeg at e1 e2 e3
  rw [CMod.add_swap] at e1; rw [CMod.mul_swap] at e2; rw [CMod.eq_swap] at e3
  refine ⟨sat_false.1 e1, sat_false.1 e2, sat_false.1 e3, fun e he h => ?_, CMod.sub_sat H' ha hb', fun hd => ?_,
    fun z hz => CMod.div_sat H' ha hb' hz, fun hu => CMod.div_throw H' ha hb' hu,
    fun e h0 he hx z hz => CMod.exp_neg_sat H' ha he h0 hx hz⟩
  · have e4 := CMod.exp_nonneg_sat (M := N) H ha he h
    unfold FpMod.copsNeg at e4
    rw [CMod.exp_swap _ _ _ (by omega)] at e4
    exact sat_false.1 e4
  · have e4 := CMod.sub_sat (M := N) H ha hb'
    unfold FpMod.copsNeg at e4
    rw [CMod.sub_swap _ _ _ _ hd] at e4
    exact sat_false.1 e4

/-- C41, violated for fpn_polymod_t: subtracting any residue of larger degree whose leading coefficient is not a
constant is undefined. -/
theorem C41_fpn_violated_sub (hb : p ≤ 46341) {a b : CMod (CMod IntMod)} {x y : AdjoinRoot N} (ha : FpnM p M N a x)
    (hb' : FpnM p M N b y) (hd : a.residue.degree < b.residue.degree) {c : CMod IntMod}
    (hc : b.residue.coeffs[b.residue.degree]? = some c) (hc0 : 0 < c.residue.degree) : CMod.sub FpMod.cops a b = ub := by
  have H := FpMod.copsNeg_ref (p := p) hb hM.out.ne_zero
  have H' := FpMod.cops_ref (p := p) hb hM.out.ne_zero
  have e1 := CMod.check_sat (M := N) H ha hb'
  unfold FpMod.copsNeg at e1
  rw [CMod.check_swap] at e1
  obtain ⟨f, hf, _, _⟩ := ha.hr
  obtain ⟨g, hg, _, _⟩ := hb'.hr
  obtain ⟨c', hc', hr⟩ := (hg.co b.residue.degree (by omega)).rd
  have hcc : c' = c := by
    unfold rd at hc'
    rw [hc] at hc'
    injection hc' with h; exact h.symm
  subst hcc
  unfold CMod.sub
  obtain ⟨_, e1, _⟩ := sat_false.1 e1
  rw [e1, ok_bind, CPoly.sub_ub H' hf hg hd hc' (CMod.neg_ub (IntMod.cops_ref hp.out.two_le hb) hr hc0)]
  rfl

/-- C36, violated for fpn_poly_t: the same for polynomials. -/
theorem C36_fpn_violated_sub (hb : p ≤ 46341) {a b : CPoly (CMod IntMod)} {f g : (AdjoinRoot M)[X]}
    (ha : PRep (FpM p M) a f) (hb' : PRep (FpM p M) b g) (hd : f.natDegree < g.natDegree) {c : CMod IntMod}
    (hc : b.coeffs[b.degree]? = some c) (hc0 : 0 < c.residue.degree) : CPoly.sub FpMod.cops a b = ub := by
  have H' := FpMod.cops_ref (p := p) hb hM.out.ne_zero
  rw [ha.deg, hb'.deg] at hd
  obtain ⟨c', hc', hr⟩ := (hb'.co b.degree (by omega)).rd
  have hcc : c' = c := by
    unfold rd at hc'
    rw [hc] at hc'
    injection hc' with h; exact h.symm
  subst hcc
  exact CPoly.sub_ub H' ha hb' hd hc' (CMod.neg_ub (IntMod.cops_ref hp.out.two_le hb) hr hc0)

/-- C41 for fpn_polymod_t: multiplication by an `int` that is not negative is exact, for every such `int`. -/
theorem C41_fpn_mulInt_partial (hb : p ≤ 46341) {a : CMod (CMod IntMod)} {x : AdjoinRoot N} (ha : FpnM p M N a x) {k : Int}
    (hk : 0 ≤ k) : (FpnMod.mulInt a k).Ok (fun r => FpnM p M N r (x * (k : AdjoinRoot N))) := by
  unfold FpnMod.mulInt
  refine ((C41_fpn_partial hb ha ha).2.2.2.2.2.1 le_rfl).bind fun z hz => ?_
  rw [sub_self] at hz
  have := forUp_ok (lo := 0) (hi := k.toNat) (s := z) (body := fun _ rv => CMod.add FpMod.cops rv a)
    (fun i s => FpnM p M N s (x * (i : AdjoinRoot N))) (by omega) (by simpa using hz) (fun i s _ _ hs => by
      refine (C41_fpn_partial hb hs ha).1.mono fun r hr => ?_
      have : x * ((i + 1 : ℕ) : AdjoinRoot N) = x * (i : AdjoinRoot N) + x := by push_cast; ring
      rwa [this])
  refine this.mono fun r hr => ?_
  have h1 : (k : AdjoinRoot N) = ((k.toNat : ℕ) : AdjoinRoot N) := by
    obtain ⟨n, rfl⟩ := Int.eq_ofNat_of_zero_le hk
    simp
  rwa [h1]

/-- C41, violated for fpn_polymod_t: every negative multiple is zero. -/
theorem C41_fpn_violated_negative (hb : p ≤ 46341) {a : CMod (CMod IntMod)} {x : AdjoinRoot N} (ha : FpnM p M N a x) {k : Int}
    (hk : k < 0) : (FpnMod.mulInt a k).Ok (fun r => FpnM p M N r 0) := by
  unfold FpnMod.mulInt
  refine ((C41_fpn_partial hb ha ha).2.2.2.2.2.1 le_rfl).bind fun z hz => ?_
  rw [sub_self] at hz
  rw [forUp_self (by omega), Ok_ok]
  exact hz

/-- C41 for fpn_polymod_t: `get_characteristic` is the characteristic. -/
theorem C41_fpn_characteristic {a : CMod (CMod IntMod)} {x : AdjoinRoot N} (ha : FpnM p M N a x) :
    FpnMod.get_characteristic a = ok (p : Int) := by
  unfold FpnMod.get_characteristic
  obtain ⟨f, hf, _, _⟩ := ha.hr
  obtain ⟨c, hc, hcr⟩ := hf.c0.rd
  obtain ⟨g, hg, _, _⟩ := hcr.hr
  obtain ⟨d, hd, hdr⟩ := hg.c0.rd
  rw [hc, ok_bind, hd, ok_bind, hdr.1]

end

/-- `t` in F_3[t]/(t^2+1), and one -/
def exc (n : Int) : CMod IntMod := ⟨⟨0, [⟨n, 3⟩]⟩, ex.modulus⟩

/-- `t·x` modulo `x^2 + t` over F_3[t]/(t^2+1) -/
def exn : CMod (CMod IntMod) := ⟨⟨1, [exc 0, ex]⟩, ⟨2, [ex, exc 0, exc 1]⟩⟩

/-- (t x)^2 = t^2 · (-t) = t -/
example : ∃ r, CMod.mul FpMod.cops exn exn = ok r ∧ r.residue.degree = 0 ∧
    ∃ c, r.residue.coeffs[0]? = some c ∧ c.residue.degree = 1 ∧ c.residue.coeffs[0]? = some ⟨0, 3⟩ ∧
      c.residue.coeffs[1]? = some ⟨1, 3⟩ :=
  ⟨_, rfl, rfl, _, rfl, rfl, rfl, rfl⟩
example : ∃ r, FpnMod.mulInt exn 5 = ok r ∧ r.residue.degree = 1 := ⟨_, rfl, rfl⟩
example : ∃ r, FpnMod.mulInt exn (-1) = ok r ∧ r.residue.degree = 0 := ⟨_, rfl, rfl⟩
example : FpnMod.get_characteristic exn = ok 3 := rfl
example : ∃ z, CMod.sub FpMod.cops exn exn = ok z ∧ CMod.sub FpMod.cops z exn = ub := ⟨_, rfl, by decide +kernel⟩
example : CPoly.sub FpMod.cops exz exl = ub := by decide +kernel

end CM
end Spffl.Props
