/-
Properties C30-C32: residues of polynomials over F2.
-/
import Verif.Proof.F2PolyMod

namespace Spffl.Props
open Res Polynomial F2P F2Mod

/-- A well-formed residue: both word arrays trimmed, modulus non-zero, residue reduced. -/
def WfMod (a : F2Mod) : Prop :=
  Canon a.residue ∧ Canon a.modulus ∧ toPoly a.modulus ≠ 0 ∧
    (toPoly a.residue).degree < (toPoly a.modulus).degree

theorem WfMod.rep {a : F2Mod} (h : WfMod a) :
    Rep (toPoly a.modulus) a (AdjoinRoot.mk _ (toPoly a.residue)) :=
  ⟨h.1, h.2.1, rfl, h.2.2.2, rfl⟩

theorem rep_wf {m} {a : F2Mod} {x} (h : Rep m a x) : WfMod a :=
  ⟨h.cr, h.cm, by rw [h.hm]; exact h.m_ne, by rw [h.hm]; exact h.deg⟩

theorem rep_of {a b : F2Mod} (hb : WfMod b) (h : a.modulus = b.modulus) :
    Rep (toPoly a.modulus) b (AdjoinRoot.mk _ (toPoly b.residue)) :=
  ⟨hb.1, hb.2.1, by rw [h], by rw [h]; exact hb.2.2.2, rfl⟩

theorem res_of_rep {m p : (ZMod 2)[X]} {a : F2Mod} (h : Rep m a (AdjoinRoot.mk m p)) :
    toPoly a.residue = p % m := by
  have h1 := h.val
  rw [AdjoinRoot.mk_eq_mk] at h1
  have h2 : m ∣ toPoly a.residue - p % m := by
    have e := EuclideanDomain.div_add_mod p m
    have : toPoly a.residue - p % m = (toPoly a.residue - p) + m * (p / m) := by linear_combination -e
    rw [this]; exact dvd_add h1 (dvd_mul_right _ _)
  refine sub_eq_zero.mp (eq_zero_of_dvd_of_degree_lt h2 ?_)
  exact lt_of_le_of_lt (degree_sub_le _ _) (max_lt h.deg (EuclideanDomain.mod_lt _ h.m_ne))

theorem wf_exists (p m : (ZMod 2)[X]) (hm : m ≠ 0) :
    ∃ a, WfMod a ∧ toPoly a.modulus = m ∧ toPoly a.residue = p % m := by
  obtain ⟨mm, h1, h2⟩ := exists_canon m
  obtain ⟨a, ha, _⟩ := exists_rep mm h1 h2 hm (AdjoinRoot.mk m p)
  exact ⟨a, rep_wf ha, ha.hm, res_of_rep ha⟩

/-- C30: constructing a residue reduces it, for every polynomial and every non-zero modulus; a zero
modulus throws. -/
theorem C30_constructor {r m : F2P} (hr : Canon r) (hm : Canon m) :
    if toPoly m = 0 then F2Mod.mk' r m = throw
    else (F2Mod.mk' r m).Ok (fun a => WfMod a ∧ a.modulus = m ∧ toPoly a.residue = toPoly r % toPoly m) := by
  by_cases h : toPoly m = 0
  · rw [if_pos h]; exact mk'_throw hm.ne_nil h
  · rw [if_neg h]
    exact (mk'_ok hr.good hm rfl h).mono fun a ⟨h1, h2⟩ => ⟨rep_wf h1, h2, res_of_rep h1⟩

/-- C30: sum, difference, product, negation and integer multiple of two residues with equal modulus are the
polynomial operations followed by reduction; results are well formed with the same modulus. -/
theorem C30_ring {a b : F2Mod} (ha : WfMod a) (hb : WfMod b) (hm : a.modulus = b.modulus) (k : Int) :
    (F2Mod.add a b).Ok (fun r => WfMod r ∧ r.modulus = a.modulus ∧
      toPoly r.residue = (toPoly a.residue + toPoly b.residue) % toPoly a.modulus) ∧
    (F2Mod.sub a b).Ok (fun r => WfMod r ∧ r.modulus = a.modulus ∧
      toPoly r.residue = (toPoly a.residue - toPoly b.residue) % toPoly a.modulus) ∧
    (F2Mod.mul a b).Ok (fun r => WfMod r ∧ r.modulus = a.modulus ∧
      toPoly r.residue = (toPoly a.residue * toPoly b.residue) % toPoly a.modulus) ∧
    (F2Mod.neg a).Ok (fun r => WfMod r ∧ r.modulus = a.modulus ∧
      toPoly r.residue = (-toPoly a.residue) % toPoly a.modulus) ∧
    (F2Mod.mulInt a k).Ok (fun r => WfMod r ∧ r.modulus = a.modulus ∧
      toPoly r.residue = (toPoly a.residue * C (k : ZMod 2)) % toPoly a.modulus) := by
  have conv : ∀ {r : F2Mod} {p}, Rep (toPoly a.modulus) r (AdjoinRoot.mk _ p) → WfMod r ∧
      r.modulus = a.modulus ∧ toPoly r.residue = p % toPoly a.modulus := fun h =>
    ⟨rep_wf h, h.cm.eq ha.2.1 h.hm, res_of_rep h⟩
  have ra := ha.rep
  have rb := rep_of hb hm
  refine ⟨(F2Mod.add_ok ra rb).mono fun r h => conv (by rwa [map_add]),
    (F2Mod.sub_ok ra rb).mono fun r h => conv (by rwa [map_sub]),
    (F2Mod.mul_ok ra rb).mono fun r h => conv (by rwa [map_mul]),
    (F2Mod.neg_ok ra).mono fun r h => conv (by rwa [map_neg]),
    (F2Mod.mulInt_ok ra k).mono fun r h => conv ?_⟩
  have : (C (k : ZMod 2) : (ZMod 2)[X]) = ((k : Int) : (ZMod 2)[X]) := by simp
  rw [map_mul, this, map_intCast]; exact h

/-- C30: comparison is equality of residue classes, the class is determined by the object, and every class of
`F2[x]/(m)` has exactly one well-formed object. -/
theorem C30_unique {a b : F2Mod} (ha : WfMod a) (hb : WfMod b) (hm : a.modulus = b.modulus) :
    (F2Mod.eq a b = ok (decide (a = b))) ∧
    (a = b ↔ toPoly a.modulus ∣ toPoly a.residue - toPoly b.residue) := by
  classical
  have ra := ha.rep
  have rb := rep_of hb hm
  have key : a = b ↔ AdjoinRoot.mk (toPoly a.modulus) (toPoly a.residue) = AdjoinRoot.mk _ (toPoly b.residue) := by
    constructor
    · intro h
      have : ∀ p q : F2P, p = q → AdjoinRoot.mk (toPoly a.modulus) (toPoly p) = AdjoinRoot.mk _ (toPoly q) := by
        rintro p q rfl; rfl
      exact this _ _ (by rw [h])
    · intro h; rw [h] at ra; exact ra.ext rb
  refine ⟨?_, by rw [key, AdjoinRoot.mk_eq_mk]⟩
  rw [F2Mod.eq_ok ra rb]
  congr 1
  rw [decide_eq_decide, key]

theorem C30_all_classes (p m : (ZMod 2)[X]) (hm : m ≠ 0) :
    ∃ a, WfMod a ∧ toPoly a.modulus = m ∧ m ∣ toPoly a.residue - p := by
  obtain ⟨a, h1, h2, h3⟩ := wf_exists p m hm
  refine ⟨a, h1, h2, -(p / m), ?_⟩
  rw [h3]; linear_combination EuclideanDomain.div_add_mod p m

/-- C30: operands with different moduli make every binary operation throw. -/
theorem C30_mixed {a b : F2Mod} (ha : WfMod a) (hb : WfMod b) (hm : a.modulus ≠ b.modulus) :
    F2Mod.add a b = throw ∧ F2Mod.sub a b = throw ∧ F2Mod.mul a b = throw ∧ F2Mod.div a b = throw ∧
    F2Mod.mod a b = throw ∧ F2Mod.lt a b = throw := by
  have : check_moduli a b = throw := check_throw ha.rep hb.rep fun h => hm (ha.2.1.eq hb.2.1 h)
  unfold F2Mod.add F2Mod.sub F2Mod.mul F2Mod.div F2Mod.mod F2Mod.lt
  simp [this]

example : ∃ a b, WfMod a ∧ WfMod b ∧ a.modulus = b.modulus ∧ toPoly a.residue = X + 1 ∧
    toPoly a.modulus = (X ^ 8 + X ^ 4 + X ^ 3 + X + 1 : (ZMod 2)[X]) ∧ a = b := by
  have hd : (X ^ 8 + X ^ 4 + X ^ 3 + X + 1 : (ZMod 2)[X]).degree = 8 := by compute_degree!
  obtain ⟨a, h1, h2, h3⟩ := wf_exists (X + 1) (X ^ 8 + X ^ 4 + X ^ 3 + X + 1) (by
    intro h; rw [h] at hd; simp at hd)
  refine ⟨a, a, h1, h1, rfl, ?_, h2, rfl⟩
  rw [h3]
  refine (Polynomial.mod_eq_self_iff (by intro h; rw [h] at hd; simp at hd)).mpr ?_
  rw [hd]; have : (X + 1 : (ZMod 2)[X]).degree = 1 := by compute_degree!
  rw [this]; decide
/-- `(x+1)·(x+1)` modulo `x^2+x+1` is `x`. -/
example : F2Mod.mul ⟨[3], [7]⟩ ⟨[3], [7]⟩ = ok ⟨[2], [7]⟩ := by decide +kernel

open scoped Classical in
/-- C31: `recip` returns a value exactly when residue and modulus are coprime, and that value is the inverse. -/
theorem C31_recip {a : F2Mod} (ha : WfMod a) :
    if IsCoprime (toPoly a.residue) (toPoly a.modulus) then
      (F2Mod.recip a).Ok (fun o => ∃ i, o = some i ∧ WfMod i ∧ i.modulus = a.modulus ∧
        toPoly a.modulus ∣ toPoly a.residue * toPoly i.residue - 1)
    else F2Mod.recip a = ok none := by
  obtain ⟨o, h1, h2⟩ := F2Mod.recip_ok ha.rep
  split
  · rename_i hc
    refine ⟨o, h1, ?_⟩
    cases o with
    | none => exact absurd (isUnit_mk.mpr hc) h2
    | some i =>
      obtain ⟨y, hy, hxy⟩ := h2
      refine ⟨i, rfl, rep_wf hy, hy.cm.eq ha.2.1 hy.hm, ?_⟩
      rw [← AdjoinRoot.mk_eq_mk, map_mul, map_one, hy.val, hxy]
  · rename_i hc
    rw [h1]
    cases o with
    | none => rfl
    | some i =>
      obtain ⟨y, hy, hxy⟩ := h2
      exact absurd (isUnit_mk.mp (IsUnit.of_mul_eq_one _ hxy)) hc

open scoped Classical in
/-- C31: division by a residue coprime to the modulus is exact: the quotient times the divisor is the dividend;
otherwise it throws. -/
theorem C31_div {a b : F2Mod} (ha : WfMod a) (hb : WfMod b) (hm : a.modulus = b.modulus) :
    if IsCoprime (toPoly b.residue) (toPoly b.modulus) then
      (F2Mod.div a b).Ok (fun r => WfMod r ∧ r.modulus = a.modulus ∧
        toPoly a.modulus ∣ toPoly r.residue * toPoly b.residue - toPoly a.residue)
    else F2Mod.div a b = throw := by
  have rb := rep_of hb hm
  split
  · rename_i hc
    rw [← hm] at hc
    obtain ⟨z, hz⟩ := (isUnit_mk.mpr hc).exists_right_inv
    refine (F2Mod.div_ok ha.rep rb hz).mono fun r hr => ⟨rep_wf hr, hr.cm.eq ha.2.1 hr.hm, ?_⟩
    rw [← AdjoinRoot.mk_eq_mk, map_mul, hr.val, mul_assoc, mul_comm z, hz, mul_one]
  · rename_i hc
    rw [← hm] at hc
    exact F2Mod.div_throw ha.rep rb (fun h => hc (isUnit_mk.mp h))

open scoped Classical in
/-- C31: over an irreducible modulus every non-zero residue has a reciprocal. -/
theorem C31_field {a : F2Mod} (ha : WfMod a) (hi : Irreducible (toPoly a.modulus)) (h0 : toPoly a.residue ≠ 0) :
    (F2Mod.recip a).Ok (fun o => ∃ i, o = some i ∧ WfMod i ∧
      toPoly a.modulus ∣ toPoly a.residue * toPoly i.residue - 1) := by
  have hc : IsCoprime (toPoly a.residue) (toPoly a.modulus) := by
    refine ((EuclideanDomain.dvd_or_coprime (toPoly a.modulus) (toPoly a.residue) hi).resolve_left fun h => ?_).symm
    exact h0 (eq_zero_of_dvd_of_degree_lt h ha.2.2.2)
  have := C31_recip ha
  rw [if_pos hc] at this
  exact this.mono fun o ⟨i, h1, h2, _, h3⟩ => ⟨i, h1, h2, h3⟩

/-- 1/x modulo x^2+x+1 is x+1; x+1 has no reciprocal modulo x^2+1. -/
example : F2Mod.recip ⟨[2], [7]⟩ = ok (some ⟨[3], [7]⟩) := by decide +kernel
example : F2Mod.recip ⟨[3], [5]⟩ = ok none := by decide +kernel

/-- C32: `exp` with a non-negative exponent is the residue of the power; `0^0` throws. -/
theorem C32_exp {a : F2Mod} (ha : WfMod a) {e : ℕ} (he : (e : Int) ≤ INT_MAX) :
    if e = 0 ∧ toPoly a.residue = 0 then F2Mod.exp a e = throw
    else (F2Mod.exp a e).Ok (fun r => WfMod r ∧ r.modulus = a.modulus ∧
      toPoly r.residue = toPoly a.residue ^ e % toPoly a.modulus) := by
  have h0 : AdjoinRoot.mk (toPoly a.modulus) (toPoly a.residue) = 0 ↔ toPoly a.residue = 0 := by
    rw [AdjoinRoot.mk_eq_zero]
    exact ⟨fun h => eq_zero_of_dvd_of_degree_lt h ha.2.2.2, fun h => by rw [h]; exact dvd_zero _⟩
  split
  · rename_i h
    have := ha.rep
    rw [h0.mpr h.2] at this
    rw [h.1]; exact F2Mod.exp_zero_throw this
  · rename_i h
    refine (F2Mod.exp_ok ha.rep he (by
      by_contra hh; push Not at hh; exact h ⟨hh.1, h0.mp hh.2⟩)).mono fun r hr => ⟨rep_wf hr, hr.cm.eq ha.2.1 hr.hm, ?_⟩
    rw [← map_pow] at hr
    exact res_of_rep hr

open scoped Classical in
/-- C32: a negative exponent gives the inverse of the power for units and throws for non-units. -/
theorem C32_neg {a : F2Mod} (ha : WfMod a) (hd : 0 < (toPoly a.modulus).degree) {e : ℕ}
    (he : (e : Int) ≤ INT_MAX) (he0 : 0 < e) :
    if IsCoprime (toPoly a.residue) (toPoly a.modulus) then
      (F2Mod.exp a (-(e : Int))).Ok (fun r => WfMod r ∧ r.modulus = a.modulus ∧
        toPoly a.modulus ∣ toPoly r.residue * toPoly a.residue ^ e - 1)
    else F2Mod.exp a (-(e : Int)) = throw := by
  split
  · rename_i hc
    obtain ⟨z, hz⟩ := (isUnit_mk.mpr hc).exists_right_inv
    have hx : AdjoinRoot.mk (toPoly a.modulus) (toPoly a.residue) ≠ 0 := by
      intro h
      rw [h, zero_mul] at hz
      have h1 : AdjoinRoot.mk (toPoly a.modulus) 1 = 0 := by rw [map_one, hz]
      rw [AdjoinRoot.mk_eq_zero] at h1
      rw [degree_eq_zero_of_isUnit (isUnit_of_dvd_one h1)] at hd
      exact lt_irrefl _ hd
    refine (F2Mod.exp_neg_ok ha.rep he he0 hx hz).mono fun r hr => ⟨rep_wf hr, hr.cm.eq ha.2.1 hr.hm, ?_⟩
    rw [← AdjoinRoot.mk_eq_mk, map_mul, map_pow, map_one, hr.val, ← mul_pow, mul_comm, hz, one_pow]
  · rename_i hc
    exact F2Mod.exp_neg_throw ha.rep he he0 (Or.inr fun h => hc (isUnit_mk.mp h))

/-- C32: `exp(INT_MIN)` negates `INT_MIN` (line 154): undefined for every non-zero residue. -/
theorem C32_int_min {a : F2Mod} (ha : WfMod a) (h0 : toPoly a.residue ≠ 0) : F2Mod.exp a INT_MIN = ub := by
  classical
  obtain ⟨⟨z, hz, hzr⟩, o, ho, hor⟩ := zero_one ha.rep
  unfold F2Mod.exp
  rw [hz, ok_bind, ho, ok_bind, if_neg (by decide), if_pos (by decide), F2Mod.eq_ok ha.rep hzr, ok_bind, if_neg]
  · rfl
  · rw [decide_eq_true_iff, AdjoinRoot.mk_eq_zero]
    exact fun h => h0 (eq_zero_of_dvd_of_degree_lt h ha.2.2.2)

/-- x^(-2) modulo x^2+x+1 is x; x^255 = 1 in the AES field. -/
example : F2Mod.exp ⟨[2], [7]⟩ (-2) = ok ⟨[2], [7]⟩ := by decide +kernel
example : F2Mod.exp ⟨[2], [0x11b]⟩ 255 = ok ⟨[1], [0x11b]⟩ := by decide +kernel

end Spffl.Props
