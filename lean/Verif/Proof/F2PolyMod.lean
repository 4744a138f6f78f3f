/-
Correctness of the f2_polymod_t model: refinement of the quotient ring `F2[x]/(m)`, represented by
Mathlib's `AdjoinRoot m`.
-/
import Verif.Model.F2PolyMod
import Verif.Proof.F2Poly2
import Verif.Proof.F2Text
import Verif.Proof.FacInfo
import Mathlib.RingTheory.AdjoinRoot

namespace Spffl
open Res Polynomial

namespace F2Mod
open F2P

/-- `a` is the canonical representative of `x ∈ F2[x]/(m)`. -/
structure Rep (m : (ZMod 2)[X]) (a : F2Mod) (x : AdjoinRoot m) : Prop where
  cr : Canon a.residue
  cm : Canon a.modulus
  hm : toPoly a.modulus = m
  deg : (toPoly a.residue).degree < m.degree
  val : AdjoinRoot.mk m (toPoly a.residue) = x

variable {m : (ZMod 2)[X]}

theorem Rep.m_ne {a : F2Mod} {x} (h : Rep m a x) : m ≠ 0 := by
  intro h0; have := h.deg; rw [h0, degree_zero] at this; exact not_lt_bot this

theorem mk_mod (p : (ZMod 2)[X]) : AdjoinRoot.mk m (p % m) = AdjoinRoot.mk m p := by
  have e := EuclideanDomain.div_add_mod p m
  conv_rhs => rw [← e]
  rw [map_add, map_mul, AdjoinRoot.mk_self, zero_mul, zero_add]

theorem mk'_ok {r mm : F2P} (hr : Good r) (hmc : Canon mm) (hm : toPoly mm = m) (hm0 : m ≠ 0) :
    (mk' r mm).Ok (fun a => Rep m a (AdjoinRoot.mk m (toPoly r)) ∧ a.modulus = mm) := by
  unfold mk'
  refine (mod_ok hr hmc.ne_nil (by rwa [hm])).bind fun q ⟨h1, h2⟩ => ?_
  rw [Ok_ok]
  refine ⟨⟨h2, hmc, hm, ?_, ?_⟩, rfl⟩
  · show (toPoly q).degree < _
    rw [h1, hm]; exact EuclideanDomain.mod_lt _ hm0
  · show AdjoinRoot.mk m (toPoly q) = _
    rw [h1, hm, mk_mod]

theorem mk'_throw {r mm : F2P} (hmn : mm ≠ []) (hm : toPoly mm = 0) : mk' r mm = throw := by
  unfold mk' F2P.mod
  rw [quot_and_rem_throw hmn hm]; rfl

theorem ne_ok {a b : F2P} (ha : a ≠ []) (hb : b ≠ []) :
    F2P.ne a b = ok (!decide (toPoly a = toPoly b)) := by
  have h := F2P.eq_ok ha hb
  unfold F2P.eq at h
  unfold F2P.ne
  rw [bind_eq_ok] at h
  obtain ⟨d, h1, h2⟩ := h
  rw [h1, ok_bind]
  simp only [Res.ok.injEq] at h2
  rw [← h2]; rfl

theorem check_ok {a b : F2Mod} {x y} (ha : Rep m a x) (hb : Rep m b y) : check_moduli a b = ok () := by
  unfold check_moduli
  rw [ne_ok ha.cm.ne_nil hb.cm.ne_nil, ok_bind, ha.hm, hb.hm]; simp

theorem check_throw {a b : F2Mod} {m'} {x y} (ha : Rep m a x) (hb : Rep m' b y) (h : m ≠ m') :
    check_moduli a b = throw := by
  unfold check_moduli
  rw [ne_ok ha.cm.ne_nil hb.cm.ne_nil, ok_bind, ha.hm, hb.hm]; simp [h]

theorem add_ok {a b : F2Mod} {x y} (ha : Rep m a x) (hb : Rep m b y) :
    (add a b).Ok (fun r => Rep m r (x + y)) := by
  unfold add
  rw [check_ok ha hb, ok_bind]
  refine (F2P.add_ok ha.cr.ne_nil).bind fun s ⟨h1, h2⟩ => ?_
  refine (mk'_ok h2.good ha.cm ha.hm ha.m_ne).mono fun r ⟨hr, _⟩ => ?_
  rwa [h1, map_add, ha.val, hb.val] at hr

theorem sub_ok {a b : F2Mod} {x y} (ha : Rep m a x) (hb : Rep m b y) :
    (sub a b).Ok (fun r => Rep m r (x - y)) := by
  unfold sub
  rw [check_ok ha hb, ok_bind]
  refine (F2P.sub_ok ha.cr.ne_nil).bind fun s ⟨h1, h2⟩ => ?_
  refine (mk'_ok h2.good ha.cm ha.hm ha.m_ne).mono fun r ⟨hr, _⟩ => ?_
  rwa [h1, map_sub, ha.val, hb.val] at hr

theorem neg_eq (p : (ZMod 2)[X]) : -p = p := by linear_combination (-p) * two_eq_zero

theorem neg_ok {a : F2Mod} {x} (ha : Rep m a x) : (neg a).Ok (fun r => Rep m r (-x)) := by
  unfold neg F2P.neg
  rw [ok_bind]
  refine (mk'_ok ha.cr.good ha.cm ha.hm ha.m_ne).mono fun r ⟨hr, _⟩ => ?_
  rw [← ha.val, ← map_neg, neg_eq]; exact hr

theorem mul_ok {a b : F2Mod} {x y} (ha : Rep m a x) (hb : Rep m b y) :
    (mul a b).Ok (fun r => Rep m r (x * y)) := by
  unfold mul
  rw [check_ok ha hb, ok_bind]
  refine (F2P.mul_ok ha.cr).bind fun s ⟨h1, h2⟩ => ?_
  refine (mk'_ok h2 ha.cm ha.hm ha.m_ne).mono fun r ⟨hr, _⟩ => ?_
  rwa [h1, map_mul, ha.val, hb.val] at hr

theorem mulInt_ok {a : F2Mod} {x} (ha : Rep m a x) (k : Int) :
    (mulInt a k).Ok (fun r => Rep m r (x * (k : AdjoinRoot m))) := by
  have h2 : (2 : AdjoinRoot m) = 0 := by
    rw [← map_ofNat (AdjoinRoot.mk m) 2]
    exact (congrArg _ two_eq_zero).trans (map_zero _)
  have hk : (k : AdjoinRoot m) = ((k % 2 : Int) : AdjoinRoot m) := by
    conv_lhs => rw [← Int.mul_ediv_add_emod k 2]
    push_cast; rw [h2]; ring
  unfold mulInt
  split
  · rename_i h
    rw [Ok_ok, hk, h]; simpa using ha
  · rename_i h
    refine (sub_ok ha ha).mono fun r hr => ?_
    have h0 : k % 2 = 0 := by omega
    rw [hk, h0]; simpa using hr

theorem isUnit_mk {p : (ZMod 2)[X]} : IsUnit (AdjoinRoot.mk m p) ↔ IsCoprime p m := by
  constructor
  · rintro h
    obtain ⟨y, hy⟩ := h.exists_right_inv
    obtain ⟨q, rfl⟩ := AdjoinRoot.mk_surjective y
    rw [← map_mul, ← map_one (AdjoinRoot.mk m), AdjoinRoot.mk_eq_mk] at hy
    obtain ⟨c, hc⟩ := hy
    exact ⟨q, -c, by linear_combination hc⟩
  · rintro ⟨u, v, h⟩
    apply IsUnit.of_mul_eq_one (b := AdjoinRoot.mk m u)
    rw [← map_mul, ← map_one (AdjoinRoot.mk m), AdjoinRoot.mk_eq_mk]
    exact ⟨-v, by linear_combination h⟩

theorem recip_ok {a : F2Mod} {x} (ha : Rep m a x) :
    (recip a).Ok (fun r => match r with
      | none => ¬ IsUnit x
      | some i => ∃ y, Rep m i y ∧ x * y = 1) := by
  unfold recip
  refine (ext_gcd_ok ha.cr ha.cm).bind fun r ⟨hg, hb, c1, c2, c3⟩ => ?_
  rw [find_degree_ok, ok_bind]
  have hm0 := ha.m_ne
  rw [ha.hm] at hg hb
  have hg0 : toPoly r.1 ≠ 0 := fun h => hm0 (by have := hg.2.1; rw [h] at this; exact zero_dvd_iff.mp this)
  split
  · rename_i hd
    rw [Ok_ok]
    show ¬ IsUnit x
    rw [← ha.val, isUnit_mk]
    intro hc
    have := hc.isUnit_of_dvd' hg.1 hg.2.1
    exact hd (natDegree_eq_zero_of_isUnit this)
  · rename_i hd
    have h1 := (natDegree_zero_cases (not_not.mp hd)).resolve_left hg0
    refine (mk'_ok c2.good ha.cm ha.hm hm0).bind fun i ⟨hi, _⟩ => ?_
    rw [Ok_ok]
    refine ⟨_, hi, ?_⟩
    rw [← ha.val, ← map_mul, ← map_one (AdjoinRoot.mk m), AdjoinRoot.mk_eq_mk]
    exact ⟨-toPoly r.2.2, by rw [h1] at hb; linear_combination -hb⟩

theorem div_ok {a b : F2Mod} {x y z} (ha : Rep m a x) (hb : Rep m b y) (hz : y * z = 1) :
    (div a b).Ok (fun r => Rep m r (x * z)) := by
  unfold div
  rw [check_ok ha hb, ok_bind]
  refine (recip_ok hb).bind fun o ho => ?_
  cases o with
  | none => exact absurd (IsUnit.of_mul_eq_one _ hz) ho
  | some i =>
    obtain ⟨w, hw, hyw⟩ := ho
    have : w = z := by linear_combination w * hz * (-1) + z * hyw
    rw [this] at hw
    exact mul_ok ha hw

theorem div_throw {a b : F2Mod} {x y} (ha : Rep m a x) (hb : Rep m b y) (hy : ¬ IsUnit y) :
    div a b = throw := by
  unfold div
  rw [check_ok ha hb, ok_bind]
  obtain ⟨o, ho, hp⟩ := recip_ok hb
  rw [ho]
  cases o with
  | none => rfl
  | some i =>
    obtain ⟨w, hw, hyw⟩ := hp
    exact absurd (IsUnit.of_mul_eq_one _ hyw) hy

theorem mod_ok {a b : F2Mod} {x y} (ha : Rep m a x) (hb : Rep m b y) (hy : IsUnit y) :
    (mod a b).Ok (fun r => Rep m r 0) := by
  unfold mod
  rw [check_ok ha hb, ok_bind]
  refine (recip_ok hb).bind fun o ho => ?_
  cases o with
  | none => exact absurd hy ho
  | some i => simpa using sub_ok ha ha

theorem Rep.inj {a b : F2Mod} {x} (ha : Rep m a x) (hb : Rep m b x) : toPoly a.residue = toPoly b.residue := by
  have h := ha.val.trans hb.val.symm
  rw [AdjoinRoot.mk_eq_mk] at h
  by_contra hne
  have h1 : (toPoly a.residue - toPoly b.residue).degree < m.degree :=
    lt_of_le_of_lt (degree_sub_le _ _) (max_lt ha.deg hb.deg)
  exact hne (sub_eq_zero.mp (eq_zero_of_dvd_of_degree_lt h h1))

theorem Rep.ext {a b : F2Mod} {x} (ha : Rep m a x) (hb : Rep m b x) : a = b := by
  have h1 : a.residue = b.residue := Canon.eq ha.cr hb.cr (ha.inj hb)
  have h2 : a.modulus = b.modulus := Canon.eq ha.cm hb.cm (ha.hm.trans hb.hm.symm)
  cases a; cases b
  simp only at h1 h2
  rw [h1, h2]

theorem eq_ok {a b : F2Mod} {x y} [DecidableEq (AdjoinRoot m)] (ha : Rep m a x) (hb : Rep m b y) :
    eq a b = ok (decide (x = y)) := by
  unfold eq
  rw [ne_ok ha.cr.ne_nil hb.cr.ne_nil, ok_bind, ne_ok ha.cm.ne_nil hb.cm.ne_nil, ok_bind, ha.hm, hb.hm]
  by_cases h : toPoly a.residue = toPoly b.residue
  · have : x = y := by rw [← ha.val, ← hb.val, h]
    simp [h, this]
  · have : x ≠ y := by rintro rfl; exact h (ha.inj hb)
    simp [h, this]

theorem exists_rep (mm : F2P) (hmc : Canon mm) (hm : toPoly mm = m) (hm0 : m ≠ 0) (x : AdjoinRoot m) :
    ∃ a, Rep m a x ∧ a.modulus = mm := by
  obtain ⟨p, rfl⟩ := AdjoinRoot.mk_surjective x
  obtain ⟨r, hr, hc⟩ := exists_canon p
  obtain ⟨a, -, h⟩ := mk'_ok hr.good hmc hm hm0
  exact ⟨a, by rw [← hc]; exact h.1, h.2⟩

/-- representation of residues only, for the loop of `exp` -/
def RepR (m : (ZMod 2)[X]) (p : F2P) (x : AdjoinRoot m) : Prop :=
  Canon p ∧ (toPoly p).degree < m.degree ∧ AdjoinRoot.mk m (toPoly p) = x

theorem mulRes_ok {mm : F2P} (hmc : Canon mm) (hm : toPoly mm = m) (hm0 : m ≠ 0) {a b : F2P} {x y}
    (ha : RepR m a x) (hb : RepR m b y) : (mulRes mm a b).Ok (fun r => RepR m r (x * y)) := by
  unfold mulRes
  refine (F2P.mul_ok ha.1).bind fun s ⟨h1, h2⟩ => ?_
  refine (F2P.mod_ok h2 hmc.ne_nil (by rwa [hm])).mono fun r ⟨h3, h4⟩ => ⟨h4, ?_, ?_⟩
  · rw [h3, hm]; exact EuclideanDomain.mod_lt _ hm0
  · rw [h3, hm, mk_mod, h1, map_mul, ha.2.2, hb.2.2]

theorem expLoop_ok {a rv : F2Mod} {xp : F2P} {w z x} (ha : Rep m a w) (hrv : Rep m rv z)
    (hx : RepR m xp x) {e : ℕ} (he : e < 2 ^ 32) : (expLoop a rv xp e).Ok (fun r => Rep m r (z * x ^ e)) := by
  unfold expLoop
  refine (FacInfo.sqMulLoop_ok (rep := RepR m) (D := fun _ => True)
    (fun {_ _ _ _} h1 h2 _ => mulRes_ok ha.cm ha.hm ha.m_ne h1 h2) (fun _ _ => trivial) 32 rv.residue xp x z e he
    ⟨hrv.cr, hrv.deg, hrv.val⟩ hx trivial trivial).bind fun r hr => ?_
  rw [Ok_ok]
  exact ⟨hr.1, hrv.cm, hrv.hm, hr.2.1, hr.2.2⟩

theorem zero_one {a : F2Mod} {x} (ha : Rep m a x) :
    (∃ z, mk' F2P.zero a.modulus = ok z ∧ Rep m z 0) ∧ (∃ o, mk' F2P.one a.modulus = ok o ∧ Rep m o 1) := by
  constructor
  · obtain ⟨z, h1, h2⟩ := mk'_ok canon_zero.good ha.cm ha.hm ha.m_ne
    exact ⟨z, h1, by simpa [toPoly_zero] using h2.1⟩
  · obtain ⟨z, h1, h2⟩ := mk'_ok canon_one.good ha.cm ha.hm ha.m_ne
    exact ⟨z, h1, by simpa [toPoly_one] using h2.1⟩

theorem exp_ok {a : F2Mod} {x} (ha : Rep m a x) {e : ℕ} (he : (e : Int) ≤ INT_MAX) (h : e ≠ 0 ∨ x ≠ 0) :
    (exp a e).Ok (fun r => Rep m r (x ^ e)) := by
  classical
  obtain ⟨⟨z, hz, hzr⟩, o, ho, hor⟩ := zero_one ha
  unfold exp
  rw [hz, ok_bind, ho, ok_bind]
  by_cases h0 : e = 0
  · subst h0
    have hx : x ≠ 0 := by simpa using h
    rw [if_pos (by simp), eq_ok ha hzr, ok_bind, if_neg (by simpa using hx)]
    simpa using hor
  · rw [if_neg (by omega), if_neg (by omega)]
    have := expLoop_ok ha hor ⟨ha.cr, ha.deg, ha.val⟩ (e := e) (by unfold INT_MAX at he; omega)
    simpa using this

theorem exp_neg_ok {a : F2Mod} {x y} (ha : Rep m a x) {e : ℕ} (he : (e : Int) ≤ INT_MAX) (he0 : 0 < e)
    (hx : x ≠ 0) (hy : x * y = 1) : (exp a (-(e : Int))).Ok (fun r => Rep m r (y ^ e)) := by
  classical
  obtain ⟨⟨z, hz, hzr⟩, o, ho, hor⟩ := zero_one ha
  unfold INT_MAX at he
  unfold exp
  rw [hz, ok_bind, ho, ok_bind, if_neg (by omega), if_pos (by omega), eq_ok ha hzr, ok_bind,
    if_neg (by simpa using hx)]
  unfold ineg
  rw [chk_ok (by unfold InInt; omega), ok_bind, if_neg (by omega)]
  refine (div_ok hor ha hy).bind fun i hi => ?_
  rw [one_mul] at hi
  have := expLoop_ok ha hor ⟨hi.cr, hi.deg, hi.val⟩ (e := (-(-(e : Int))).toNat) (by omega)
  simpa using this

theorem exp_neg_throw {a : F2Mod} {x} (ha : Rep m a x) {e : ℕ} (he : (e : Int) ≤ INT_MAX) (he0 : 0 < e)
    (hx : x = 0 ∨ ¬ IsUnit x) : exp a (-(e : Int)) = throw := by
  classical
  obtain ⟨⟨z, hz, hzr⟩, o, ho, hor⟩ := zero_one ha
  unfold INT_MAX at he
  unfold exp
  rw [hz, ok_bind, ho, ok_bind, if_neg (by omega), if_pos (by omega), eq_ok ha hzr, ok_bind]
  by_cases h0 : x = 0
  · rw [if_pos (by simpa using h0)]
  · rw [if_neg (by simpa using h0)]
    unfold ineg
    rw [chk_ok (by unfold InInt; omega), ok_bind, if_neg (by omega),
      div_throw hor ha (hx.resolve_left h0)]; rfl

theorem exp_zero_throw {a : F2Mod} (ha : Rep m a 0) : exp a 0 = throw := by
  classical
  obtain ⟨⟨z, hz, hzr⟩, o, ho, hor⟩ := zero_one ha
  unfold exp
  rw [hz, ok_bind, ho, ok_bind, if_pos rfl, eq_ok ha hzr, ok_bind, if_pos (by simp)]

end F2Mod
end Spffl
