/-
The polynomial classes as elements of the Euclidean-domain elimination.
-/
import Verif.Proof.EDet
import Verif.Proof.F2Factor
import Verif.Proof.CoefInst

namespace Spffl
open Res Polynomial

namespace F2P

/-- an f2_poly_t entry: canonical storage -/
def ERep (a : F2P) (x : (ZMod 2)[X]) : Prop := Canon a ∧ toPoly a = x

/-- a product of entries: a zero may keep several words -/
def WRep (a : F2P) (x : (ZMod 2)[X]) : Prop := Good a ∧ toPoly a = x

theorem edref : EDRef False F2P.edops ERep WRep where
  weak h := ⟨h.1.good, h.2⟩
  sub := by
    rintro a b _ _ ⟨ha, rfl⟩ ⟨_, rfl⟩
    exact sat_false.mpr ((sub_ok ha.1).mono fun r ⟨h1, h2⟩ => ⟨h2, h1⟩)
  mul := by
    rintro a b _ _ ⟨ha, rfl⟩ ⟨_, rfl⟩ hne
    exact sat_false.mpr ((mul_canon ha hne).mono fun r ⟨h1, h2⟩ => ⟨h2, h1⟩)
  mulw := by
    rintro a b x y h ⟨hb, rfl⟩
    rcases h with ⟨ha, rfl⟩ | ⟨⟨ha, rfl⟩, hz⟩
    · exact sat_false.mpr ((mul_ok ha).mono fun r ⟨h1, h2⟩ => ⟨h2, h1⟩)
    · refine sat_false.mpr ((mul_gen (Or.inr ⟨hz, ha.1⟩)).mono fun r ⟨h1, h2⟩ => ⟨⟨?_, fun hne => ?_⟩, h1⟩)
      · exact ne_nil_of_length (by omega)
      · rw [h1, hz, mul_zero] at hne; exact absurd rfl hne
  div := by
    rintro a b y q ⟨ha, ha'⟩ ⟨hb, rfl⟩ hy
    refine sat_false.mpr ((div_ok ha hb.ne_nil hy).mono fun r ⟨h1, h2⟩ => ⟨h2, ?_⟩)
    rw [h1, ha', mul_div_cancel_left₀ _ hy]
  mod := by
    rintro a b y q ⟨ha, ha'⟩ ⟨hb, rfl⟩ hy
    refine sat_false.mpr ((mod_ok ha hb.ne_nil hy).mono fun r ⟨h1, h2⟩ => ⟨h2, ?_⟩)
    rw [h1, ha', EuclideanDomain.mod_eq_zero]; exact dvd_mul_right _ _
  gcd := by
    rintro a b _ _ ⟨ha, rfl⟩ ⟨hb, rfl⟩
    exact sat_false.mpr ((gcd_ok ha hb).mono fun r ⟨h1, h2⟩ => ⟨_, ⟨h2, rfl⟩, h1⟩)
  eq := by
    rintro a b _ _ ⟨ha, rfl⟩ ⟨hb, rfl⟩
    refine sat_false.mpr ?_
    show (F2P.eq a b).Ok _
    rw [eq_ok ha.ne_nil hb.ne_nil]; simp

end F2P

namespace CPoly
variable {U : Prop} {α K : Type} [Field K] {O : CoefOps α} {rep : α → K → Prop} {ord : K → K → Prop}

theorem edref (H : CoefRef U O rep ord) (d : α) : EDRef U (CPoly.edops O d) (PRep rep) (PRep rep) where
  weak h := h
  sub h h' := sub_sat H h h'
  mul h h' _ := mul_sat H h h'
  mulw := by
    rintro a b x y h hb
    rcases h with h | ⟨h, _⟩
    · exact mul_sat H h hb
    · exact mul_sat H h hb
  div := by
    intro a b y q ha hb hy
    refine (quot_and_rem_sat H ha hb hy (unit_lead hy)).bind fun s ⟨q', r, h1, h2, h3, h4⟩ => ?_
    rw [Sat_ok]
    have := (poly_div_mod_unique h3 h4).1
    rw [mul_div_cancel_left₀ _ hy] at this
    rw [this]; exact h1
  mod := by
    intro a b y q ha hb hy
    refine (quot_and_rem_sat H ha hb hy (unit_lead hy)).bind fun s ⟨q', r, h1, h2, h3, h4⟩ => ?_
    rw [Sat_ok]
    have := (poly_div_mod_unique h3 h4).2
    rw [(EuclideanDomain.mod_eq_zero (a := y * q) (b := y)).mpr (dvd_mul_right _ _)] at this
    rw [this]; exact h2
  gcd h h' := gcd_sat H h h'
  eq h h' := eq_sat H h h'

/-- Comparing with the coefficient of the default-constructed polynomial throws, so dividing by that polynomial does. -/
theorem mod_dflt (H : CoefRef U O rep ord) {d : α} (hd : ∀ c x, rep c x → (O.lt d c).Throws U) {a : CPoly α} {f : K[X]} (ha : PRep rep a f) :
    (CPoly.mod O a ⟨0, [d]⟩).Throws U := by
  unfold CPoly.mod CPoly.quot_and_rem
  refine Throws.bind ?_
  refine (rd_sat ha.c0).throws_bind fun c hc => ?_
  refine (H.sub hc hc).throws_bind fun z hz => ?_
  refine Throws.bind ?_
  unfold eqConst
  refine (const_sat H hz).throws_bind fun p hp => ?_
  rw [sub_self, C_0] at hp
  have hdeg : p.degree = 0 := by rw [← hp.deg]; simp
  unfold CPoly.eq CPoly.cmp
  refine Throws.bind ?_
  simp only [hdeg, lt_self_iff_false, if_false, zero_add]
  unfold cmpLoop
  simp only [rd, List.getElem?_cons_zero, ok_bind]
  have := rd_sat (U := U) hp.c0
  unfold rd at this
  exact this.throws_bind fun c hc => (hd _ _ hc).bind

end CPoly

theorem IntMod.lt_dflt {p : ℕ} (hp : 2 ≤ p) {c : IntMod} {x : ZMod p} (h : IntMod.Rep p c x) : IntMod.lt ⟨0, 1⟩ c = throw := by
  unfold IntMod.lt IntMod.check_moduli IntMod.check_modulus
  have := h.1
  have h1 : c.modulus ≠ 0 := by omega
  have h2 : (1 : Int) ≠ c.modulus := by omega
  simp [h1, h2]

theorem F2Mod.lt_dflt {m : (ZMod 2)[X]} (hm : Irreducible m) {c : F2Mod} {x : AdjoinRoot m} (h : F2Mod.Rep m c x) :
    F2Mod.lt ⟨F2P.zero, F2P.one⟩ c = throw := by
  unfold F2Mod.lt F2Mod.check_moduli
  rw [F2Mod.ne_ok F2P.canon_one.ne_nil h.cm.ne_nil, ok_bind, h.hm, F2P.toPoly_one]
  have : (1 : (ZMod 2)[X]) ≠ m := by rintro rfl; exact hm.not_isUnit isUnit_one
  simp [this]

end Spffl
