/-
Correctness of the residue-class model over coefficient-array polynomials: refinement of `K[x]/(M)` for a
field `K`, represented by Mathlib's `AdjoinRoot M`.
-/
import Verif.Model.CMod
import Verif.Proof.CoefInst
import Mathlib.RingTheory.AdjoinRoot

namespace Spffl
open Res Polynomial

namespace CMod
variable {U : Prop} {α K : Type} [Field K] {O : CoefOps α} {rep : α → K → Prop} {ord : K → K → Prop}
open CPoly

/-- `a` is a reduced representative of `x ∈ K[x]/(M)`. -/
structure Rep (rep : α → K → Prop) (M : K[X]) (a : CMod α) (x : AdjoinRoot M) : Prop where
  hm : PRep rep a.modulus M
  hr : ∃ f, PRep rep a.residue f ∧ f.degree < M.degree ∧ AdjoinRoot.mk M f = x

variable {M : K[X]}

theorem Rep.m_ne {a : CMod α} {x} (h : Rep rep M a x) : M ≠ 0 := by
  obtain ⟨f, _, hd, _⟩ := h.hr
  intro h0; rw [h0, degree_zero] at hd; exact not_lt_bot hd

theorem mk_mod (p : K[X]) : AdjoinRoot.mk M (p % M) = AdjoinRoot.mk M p := by
  have e := EuclideanDomain.div_add_mod p M
  conv_rhs => rw [← e]
  rw [map_add, map_mul, AdjoinRoot.mk_self, zero_mul, zero_add]

theorem mod_sat (H : CoefRef U O rep ord) {r m : CPoly α} {f g : K[X]} (hr : PRep rep r f) (hm : PRep rep m g)
    (hg : g ≠ 0) : (CPoly.mod O r m).Sat U (fun s => PRep rep s (f % g)) := by
  unfold CPoly.mod
  refine (quot_and_rem_sat H hr hm hg (unit_lead hg)).bind ?_
  rintro s ⟨q, t, h1, h2, h3, h4⟩
  obtain ⟨-, e2⟩ := poly_div_mod_unique h3 h4
  rw [Sat_ok, e2]; exact h2

theorem mk'_sat (H : CoefRef U O rep ord) {r m : CPoly α} {f : K[X]} (hr : PRep rep r f) (hm : PRep rep m M)
    (hM : M ≠ 0) : (mk' O r m).Sat U (fun a => Rep rep M a (AdjoinRoot.mk M f)) := by
  unfold mk'
  refine (mod_sat H hr hm hM).bind fun s hs => ?_
  rw [Sat_ok]
  exact ⟨hm, _, hs, EuclideanDomain.mod_lt _ hM, mk_mod f⟩

theorem mk'_zero (H : CoefRef U O rep ord) {r m : CPoly α} {f : K[X]} (hr : PRep rep r f) (hm : PRep rep m 0) :
    (mk' O r m).Throws U := by
  unfold mk' CPoly.mod
  exact (quot_and_rem_zero H hr hm).bind.bind

theorem psub_sat (H : CoefRef U O rep ord) {a : CMod α} {x} (ha : Rep rep M a x) {v : Int} (hv : InInt v) :
    (psub O a v).Sat U (fun r => Rep rep M r (v : AdjoinRoot M)) := by
  unfold psub
  obtain ⟨f, hf, _, _⟩ := ha.hr
  refine (CPoly.psub_sat H hf hv).bind fun r hr => ?_
  refine (mk'_sat H hr ha.hm ha.m_ne).mono fun s hs => ?_
  have e : (C (v : K) : K[X]) = (v : K[X]) := by simp
  rwa [e, map_intCast] at hs

theorem check_sat (H : CoefRef U O rep ord) {a b : CMod α} {x y} (ha : Rep rep M a x) (hb : Rep rep M b y) :
    (check_moduli O a b).Sat U (fun _ => True) := by
  unfold check_moduli
  refine (eq_sat H ha.hm hb.hm).bind fun e he => ?_
  rw [if_pos (he.mpr rfl)]; trivial

theorem check_throw (H : CoefRef U O rep ord) {a b : CMod α} {M'} {x y} (ha : Rep rep M a x) (hb : Rep rep M' b y)
    (h : M ≠ M') : (check_moduli O a b).Throws U := by
  unfold check_moduli
  refine (eq_sat H ha.hm hb.hm).throws_bind fun e he => ?_
  rw [if_neg (fun e => h (he.mp e))]; exact Or.inl rfl

theorem add_sat (H : CoefRef U O rep ord) {a b : CMod α} {x y} (ha : Rep rep M a x) (hb : Rep rep M b y) :
    (add O a b).Sat U (fun r => Rep rep M r (x + y)) := by
  unfold add
  obtain ⟨f, hf, _, rfl⟩ := ha.hr
  obtain ⟨g, hg, _, rfl⟩ := hb.hr
  refine (check_sat H ha hb).bind fun _ _ => ?_
  refine (CPoly.add_sat H hf hg).bind fun s hs => ?_
  rw [← map_add]; exact mk'_sat H hs ha.hm ha.m_ne

theorem sub_sat (H : CoefRef U O rep ord) {a b : CMod α} {x y} (ha : Rep rep M a x) (hb : Rep rep M b y) :
    (sub O a b).Sat U (fun r => Rep rep M r (x - y)) := by
  unfold sub
  obtain ⟨f, hf, _, rfl⟩ := ha.hr
  obtain ⟨g, hg, _, rfl⟩ := hb.hr
  refine (check_sat H ha hb).bind fun _ _ => ?_
  refine (CPoly.sub_sat H hf hg).bind fun s hs => ?_
  rw [← map_sub]; exact mk'_sat H hs ha.hm ha.m_ne

theorem mul_sat (H : CoefRef U O rep ord) {a b : CMod α} {x y} (ha : Rep rep M a x) (hb : Rep rep M b y) :
    (mul O a b).Sat U (fun r => Rep rep M r (x * y)) := by
  unfold mul
  obtain ⟨f, hf, _, rfl⟩ := ha.hr
  obtain ⟨g, hg, _, rfl⟩ := hb.hr
  refine (check_sat H ha hb).bind fun _ _ => ?_
  refine (CPoly.mul_sat H hf hg).bind fun s hs => ?_
  rw [← map_mul]; exact mk'_sat H hs ha.hm ha.m_ne

/-- unary minus of a residue of degree 0 -/
theorem neg_const_sat (H : CoefRef U O rep ord) {a : CMod α} {x} (ha : Rep rep M a x) (h0 : a.residue.degree = 0) :
    (neg O a).Sat U (fun r => Rep rep M r (-x)) := by
  unfold neg
  obtain ⟨f, hf, _, rfl⟩ := ha.hr
  refine (CPoly.neg_const_sat H hf h0).bind fun s hs => ?_
  rw [← map_neg]; exact mk'_sat H hs ha.hm ha.m_ne

theorem neg_ub (H : CoefRef False O rep ord) {a : CMod α} {x} (ha : Rep rep M a x) (h0 : 0 < a.residue.degree) :
    neg O a = ub := by
  unfold neg
  obtain ⟨f, hf, _, rfl⟩ := ha.hr
  rw [CPoly.neg_ub H hf h0]; rfl

theorem isUnit_mk {p : K[X]} : IsUnit (AdjoinRoot.mk M p) ↔ IsCoprime p M := by
  constructor
  · rintro h
    obtain ⟨y, hy⟩ := h.exists_right_inv
    obtain ⟨q, rfl⟩ := AdjoinRoot.mk_surjective y
    rw [← map_mul, ← map_one (AdjoinRoot.mk M), AdjoinRoot.mk_eq_mk] at hy
    obtain ⟨c, hc⟩ := hy
    exact ⟨q, -c, by linear_combination hc⟩
  · rintro ⟨u, v, h⟩
    apply IsUnit.of_mul_eq_one (b := AdjoinRoot.mk M u)
    rw [← map_mul, ← map_one (AdjoinRoot.mk M), AdjoinRoot.mk_eq_mk]
    exact ⟨-v, by linear_combination h⟩

theorem recip_sat (H : CoefRef U O rep ord) {a : CMod α} {x} (ha : Rep rep M a x) :
    (recip O a).Sat U (fun r => match r with
      | none => ¬ IsUnit x
      | some i => ∃ y, Rep rep M i y ∧ x * y = 1) := by
  unfold recip
  obtain ⟨f, hf, _, rfl⟩ := ha.hr
  have hm0 := ha.m_ne
  refine (ext_gcd_sat H hf ha.hm hm0).bind ?_
  rintro r ⟨h, u, v, h1, h2, h3, h4, h5⟩
  have hh0 : h ≠ 0 := fun e => hm0 (zero_dvd_iff.mp (e ▸ h4.2.1))
  split
  · rename_i hd
    rw [Sat_ok]
    show ¬ IsUnit _
    rw [isUnit_mk]
    intro hc
    have := hc.isUnit_of_dvd' h4.1 h4.2.1
    exact hd (by rw [← h1.deg]; exact natDegree_eq_zero_of_isUnit this)
  · rename_i hd
    have hd0 : h.natDegree = 0 := by rw [h1.deg]; exact not_not.mp hd
    have hc0 : h.coeff 0 ≠ 0 := by
      have := leadingCoeff_ne_zero.mpr hh0
      rwa [leadingCoeff, hd0] at this
    refine (get_coeff_sat H h1 0).bind fun c hc => ?_
    refine (H.recip hc hc0).bind fun o ho => ?_
    cases o with
    | none => exact absurd (IsUnit.mk0 _ hc0) ho
    | some ci =>
      obtain ⟨y, hy, hxy⟩ := ho
      refine (smul_sat H h2 hy).bind fun s hs => ?_
      refine (mk'_sat H hs ha.hm hm0).bind fun i hi => ?_
      rw [Sat_ok]
      refine ⟨_, hi, ?_⟩
      rw [← map_mul, ← map_one (AdjoinRoot.mk M), AdjoinRoot.mk_eq_mk]
      have e : h = C (h.coeff 0) := eq_C_of_natDegree_eq_zero hd0
      have e1 : h * C y = 1 := by rw [e, ← C_mul, hxy, C_1]
      exact ⟨-(v * C y), by rw [h5] at e1; linear_combination e1⟩

theorem div_sat (H : CoefRef U O rep ord) {a b : CMod α} {x y z} (ha : Rep rep M a x) (hb : Rep rep M b y)
    (hz : y * z = 1) : (div O a b).Sat U (fun r => Rep rep M r (x * z)) := by
  unfold div
  refine (check_sat H ha hb).bind fun _ _ => ?_
  refine (recip_sat H hb).bind fun o ho => ?_
  cases o with
  | none => exact absurd (IsUnit.of_mul_eq_one _ hz) ho
  | some i =>
    obtain ⟨w, hw, hyw⟩ := ho
    have : w = z := by linear_combination w * hz * (-1) + z * hyw
    rw [this] at hw
    exact mul_sat H ha hw

theorem div_throw (H : CoefRef U O rep ord) {a b : CMod α} {x y} (ha : Rep rep M a x) (hb : Rep rep M b y)
    (hy : ¬ IsUnit y) : (div O a b).Throws U := by
  unfold div
  refine (check_sat H ha hb).throws_bind fun _ _ => ?_
  refine (recip_sat H hb).throws_bind fun o ho => ?_
  cases o with
  | none => exact Or.inl rfl
  | some i =>
    obtain ⟨w, hw, hyw⟩ := ho
    exact absurd (IsUnit.of_mul_eq_one _ hyw) hy

theorem mod_unit_sat (H : CoefRef U O rep ord) {a b : CMod α} {x y} (ha : Rep rep M a x) (hb : Rep rep M b y)
    (hy : IsUnit y) : (mod O a b).Sat U (fun r => Rep rep M r 0) := by
  unfold mod
  refine (check_sat H ha hb).bind fun _ _ => ?_
  refine (recip_sat H hb).bind fun o ho => ?_
  cases o with
  | none => exact absurd hy ho
  | some i => simpa using sub_sat H ha ha

theorem mk_inj {p q : K[X]} (hp : p.degree < M.degree) (hq : q.degree < M.degree)
    (h : AdjoinRoot.mk M p = AdjoinRoot.mk M q) : p = q := by
  rw [AdjoinRoot.mk_eq_mk] at h
  exact sub_eq_zero.mp (eq_zero_of_dvd_of_degree_lt h (lt_of_le_of_lt (degree_sub_le _ _) (max_lt hp hq)))

theorem eq_sat (H : CoefRef U O rep ord) {a b : CMod α} {x y} (ha : Rep rep M a x) (hb : Rep rep M b y) :
    (eq O a b).Sat U (fun r => r = true ↔ x = y) := by
  unfold eq
  obtain ⟨f, hf, df, rfl⟩ := ha.hr
  obtain ⟨g, hg, dg, rfl⟩ := hb.hr
  refine (CPoly.eq_sat H hf hg).bind fun e he => ?_
  split
  · rename_i h
    refine (CPoly.eq_sat H ha.hm hb.hm).mono fun r hr => ?_
    rw [he.mp h]; simpa using hr
  · rename_i h
    rw [Sat_ok]
    refine ⟨fun h => by simp at h, fun h' => absurd (he.mpr (mk_inj df dg h')) h⟩

/-- the order of `operator<`: on reduced representatives -/
def ordM (ord : K → K → Prop) (M : K[X]) (x y : AdjoinRoot M) : Prop :=
  ∃ p q : K[X], p.degree < M.degree ∧ q.degree < M.degree ∧ AdjoinRoot.mk M p = x ∧ AdjoinRoot.mk M q = y ∧
    polyLt ord p q

theorem ordM_mk {p q : K[X]} (hp : p.degree < M.degree) (hq : q.degree < M.degree) :
    ordM ord M (AdjoinRoot.mk M p) (AdjoinRoot.mk M q) ↔ polyLt ord p q := by
  constructor
  · rintro ⟨p', q', h1, h2, h3, h4, h5⟩
    rwa [mk_inj h1 hp h3, mk_inj h2 hq h4] at h5
  · intro h; exact ⟨p, q, hp, hq, rfl, rfl, h⟩

theorem lt_sat (H : CoefRef U O rep ord) {a b : CMod α} {x y} (ha : Rep rep M a x) (hb : Rep rep M b y) :
    (lt O a b).Sat U (fun r => r = true ↔ ordM ord M x y) := by
  unfold lt
  obtain ⟨f, hf, df, rfl⟩ := ha.hr
  obtain ⟨g, hg, dg, rfl⟩ := hb.hr
  refine (check_sat H ha hb).bind fun _ _ => ?_
  rw [ordM_mk df dg]; exact CPoly.lt_sat H hf hg

theorem gt_sat (H : CoefRef U O rep ord) {a b : CMod α} {x y} (ha : Rep rep M a x) (hb : Rep rep M b y) :
    (gt O a b).Sat U (fun r => r = true ↔ ordM ord M y x) := by
  unfold gt
  obtain ⟨f, hf, df, rfl⟩ := ha.hr
  obtain ⟨g, hg, dg, rfl⟩ := hb.hr
  refine (check_sat H ha hb).bind fun _ _ => ?_
  rw [ordM_mk dg df]; exact CPoly.gt_sat H hf hg

theorem exists_lowdeg (hM : M ≠ 0) (x : AdjoinRoot M) : ∃ p : K[X], p.degree < M.degree ∧ AdjoinRoot.mk M p = x := by
  obtain ⟨p, rfl⟩ := AdjoinRoot.mk_surjective x
  exact ⟨p % M, EuclideanDomain.mod_lt _ hM, mk_mod p⟩

theorem exists_rep (hrep : ∀ x : K, ∃ a, rep a x) (hM : M ≠ 0) (x : AdjoinRoot M) : ∃ a, Rep rep M a x := by
  obtain ⟨p, hp, rfl⟩ := exists_lowdeg hM x
  obtain ⟨r, hr⟩ := exists_prep hrep p
  obtain ⟨m, hm⟩ := exists_prep hrep M
  exact ⟨⟨r, m⟩, hm, p, hr, hp, rfl⟩

/-- representation of residues only, for the loop of `exp` -/
def RepR (rep : α → K → Prop) (M : K[X]) (p : CPoly α) (x : AdjoinRoot M) : Prop :=
  ∃ f, PRep rep p f ∧ f.degree < M.degree ∧ AdjoinRoot.mk M f = x

theorem mulRes_sat (H : CoefRef U O rep ord) {m : CPoly α} (hm : PRep rep m M) (hM : M ≠ 0) {a b : CPoly α} {x y}
    (ha : RepR rep M a x) (hb : RepR rep M b y) : (mulRes O m a b).Sat U (fun r => RepR rep M r (x * y)) := by
  unfold mulRes
  obtain ⟨f, hf, _, rfl⟩ := ha
  obtain ⟨g, hg, _, rfl⟩ := hb
  refine (CPoly.mul_sat H hf hg).bind fun s hs => ?_
  refine (mod_sat H hs hm hM).mono fun r hr => ⟨_, hr, EuclideanDomain.mod_lt _ hM, ?_⟩
  rw [mk_mod, map_mul]

theorem expLoop_sat (H : CoefRef U O rep ord) {a rv : CMod α} {xp : CPoly α} {w z x} (ha : Rep rep M a w)
    (hrv : Rep rep M rv z) (hx : RepR rep M xp x) {e : ℕ} (he : e < 2 ^ 32) :
    (expLoop O a rv xp e).Sat U (fun r => Rep rep M r (z * x ^ e)) := by
  unfold expLoop
  refine (sqMulLoop_sat (rep := RepR rep M) (fun h1 h2 => mulRes_sat H ha.hm ha.m_ne h1 h2) 32 rv.residue xp x z e he
    hrv.hr hx).bind fun r hr => ?_
  rw [Sat_ok]; exact ⟨hrv.hm, hr⟩

theorem exp_nonneg_sat (H : CoefRef U O rep ord) {a : CMod α} {x} (ha : Rep rep M a x) {e : ℕ}
    (he : (e : Int) ≤ INT_MAX) (h : e ≠ 0 ∨ x ≠ 0) : (exp O a e).Sat U (fun r => Rep rep M r (x ^ e)) := by
  unfold exp
  refine (psub_sat H ha (v := 0) (by decide)).bind fun z hz => ?_
  refine (psub_sat H ha (v := 1) (by decide)).bind fun o ho => ?_
  simp only [Int.cast_zero, Int.cast_one] at hz ho
  by_cases h0 : e = 0
  · subst h0
    have hx : x ≠ 0 := by simpa using h
    rw [if_pos (by simp)]
    refine (eq_sat H ha hz).bind fun b hb => ?_
    rw [if_neg (fun e => hx (hb.mp e))]
    simpa using ho
  · rw [if_neg (by omega), if_neg (by omega)]
    have := expLoop_sat H ha ho ha.hr (e := e) (by unfold INT_MAX at he; omega)
    simpa using this

theorem exp_neg_sat (H : CoefRef U O rep ord) {a : CMod α} {x y} (ha : Rep rep M a x) {e : ℕ}
    (he : (e : Int) ≤ INT_MAX) (he0 : 0 < e) (hx : x ≠ 0) (hy : x * y = 1) :
    (exp O a (-(e : Int))).Sat U (fun r => Rep rep M r (y ^ e)) := by
  unfold INT_MAX at he
  unfold exp
  refine (psub_sat H ha (v := 0) (by decide)).bind fun z hz => ?_
  refine (psub_sat H ha (v := 1) (by decide)).bind fun o ho => ?_
  simp only [Int.cast_zero, Int.cast_one] at hz ho
  rw [if_neg (by omega), if_pos (by omega)]
  refine (eq_sat H ha hz).bind fun b hb => ?_
  rw [if_neg (fun e => hx (hb.mp e))]
  unfold ineg
  rw [chk_ok (by unfold InInt; omega), ok_bind, if_neg (by omega)]
  refine (div_sat H ho ha hy).bind fun i hi => ?_
  rw [one_mul] at hi
  have := expLoop_sat H ha ho hi.hr (e := (-(-(e : Int))).toNat) (by omega)
  simpa using this

theorem exp_neg_throw (H : CoefRef U O rep ord) {a : CMod α} {x} (ha : Rep rep M a x) {e : ℕ}
    (he : (e : Int) ≤ INT_MAX) (he0 : 0 < e) (hx : x = 0 ∨ ¬ IsUnit x) : (exp O a (-(e : Int))).Throws U := by
  unfold INT_MAX at he
  unfold exp
  refine (psub_sat H ha (v := 0) (by decide)).throws_bind fun z hz => ?_
  refine (psub_sat H ha (v := 1) (by decide)).throws_bind fun o ho => ?_
  simp only [Int.cast_zero, Int.cast_one] at hz ho
  rw [if_neg (by omega), if_pos (by omega)]
  refine (eq_sat H ha hz).throws_bind fun b hb => ?_
  split
  · exact Or.inl rfl
  · rename_i h0
    unfold ineg
    rw [chk_ok (by unfold InInt; omega), ok_bind, if_neg (by omega)]
    exact (div_throw H ho ha (hx.resolve_left fun e => h0 (hb.mpr e))).bind

theorem exp_zero_throw (H : CoefRef U O rep ord) {a : CMod α} (ha : Rep rep M a 0) : (exp O a 0).Throws U := by
  unfold exp
  refine (psub_sat H ha (v := 0) (by decide)).throws_bind fun z hz => ?_
  refine (psub_sat H ha (v := 1) (by decide)).throws_bind fun o ho => ?_
  simp only [Int.cast_zero] at hz
  rw [if_pos rfl]
  refine (eq_sat H ha hz).throws_bind fun b hb => ?_
  rw [if_pos (hb.mpr rfl)]; exact Or.inl rfl

/-- `operator*(int)` for non-negative factors -/
theorem mulIntP_sat (H : CoefRef U O rep ord) {p : ℕ} [CharP K p] {a : CMod α} {x} (ha : Rep rep M a x)
    (hp : 0 < p) {k : Int} (hk0 : 0 ≤ k) (hk : InInt k) :
    (mulIntP O a p k).Sat U (fun r => Rep rep M r (x * (k : AdjoinRoot M))) := by
  unfold mulIntP imod
  have hpz : (0 : Int) < p := by exact_mod_cast hp
  rw [if_neg (by omega), if_pos]
  swap
  · have h1 : 0 ≤ k.tdiv p := Int.tdiv_nonneg hk0 (by omega)
    have h2 : k.tdiv p ≤ k := Int.tdiv_le_self _ hk0
    unfold InInt at hk ⊢; omega
  rw [ok_bind, Int.tmod_eq_emod_of_nonneg hk0]
  have hcast : (k : AdjoinRoot M) = ((k % (p : Int)).toNat : AdjoinRoot M) := by
    have hp0 : ((p : ℕ) : AdjoinRoot M) = 0 := by
      rw [← map_natCast (AdjoinRoot.mk M), show ((p : ℕ) : K[X]) = C ((p : ℕ) : K) by simp, CharP.cast_eq_zero, C_0, map_zero]
    have h1 : k % p = ((k % (p : Int)).toNat : Int) := (Int.toNat_of_nonneg (Int.emod_nonneg _ (by omega))).symm
    conv_lhs => rw [← Int.mul_ediv_add_emod k p, h1]
    push_cast; rw [hp0]; ring
  rw [hcast]
  split
  · rename_i h
    rw [h]
    simpa using sub_sat H ha ha
  · rename_i h
    have h1 := Int.emod_nonneg k (b := p) (by omega)
    refine forUp_sat (fun i s => Rep rep M s (x * (i : AdjoinRoot M))) (by omega) (by simpa using ha) ?_
    intro i s _ _ hs
    refine (add_sat H hs ha).mono fun r hr => ?_
    have : x * ((i + 1 : ℕ) : AdjoinRoot M) = x * (i : AdjoinRoot M) + x := by push_cast; ring
    rwa [this]

/-- `operator*(int)` for negative factors: unchanged unless `p ∣ k` -/
theorem mulIntP_neg {p k : Int} {a : CMod α} (hp : 0 < p) (hk : k < 0) (hkp : ¬ p ∣ k) (hki : InInt k) :
    mulIntP O a p k = ok a := by
  unfold mulIntP imod
  rw [if_neg (by omega), if_pos]
  swap
  · have h : -k.tdiv p = (-k).tdiv p := (Int.neg_tdiv k p).symm
    have h1 : 0 ≤ (-k).tdiv p := Int.tdiv_nonneg (by omega) (by omega)
    have h2 : (-k).tdiv p ≤ -k := Int.tdiv_le_self _ (by omega)
    unfold InInt at hki ⊢; omega
  rw [ok_bind, if_neg fun h => hkp (Int.dvd_of_tmod_eq_zero h)]
  have h1 : k.tmod p ≤ 0 := by
    have := Int.tmod_nonneg (a := -k) p (by omega)
    rw [Int.neg_tmod] at this; omega
  have : (k.tmod p).toNat = 0 := by omega
  rw [this]; rfl

/-- The tower: residue classes as coefficients, for any sound treatment of unary minus. -/
theorem cref (H : CoefRef False O rep ord) (hM : M ≠ 0) {C : CoefOps (CMod α)} {ng : CMod α → Res (CMod α)}
    (e1 : C.toEltOps = ⟨add O, sub O, mul O, div O, ng, eq O, lt O⟩) (e2 : C.gt = gt O) (e3 : C.psub = psub O)
    (e4 : C.recip = recip O) (e5 : C.isInt = fun a v => CPoly.eqInt O a.residue v)
    (hng : ∀ {a x}, Rep rep M a x → (ng a).Sat U (fun r => Rep rep M r (-x))) :
    CoefRef U C (Rep rep M) (ordM ord M) where
  add h h' := by
    rw [e1]; exact (sat_false.mp (add_sat H h h')).sat
  sub h h' := by rw [e1]; exact (sat_false.mp (sub_sat H h h')).sat
  mul h h' := by rw [e1]; exact (sat_false.mp (mul_sat H h h')).sat
  neg h := by rw [e1]; exact hng h
  div h h' hz := by rw [e1]; exact (sat_false.mp (div_sat H h h' hz)).sat
  div_throw h h' hu := by rw [e1]; exact Or.inl (throws_false.mp (div_throw H h h' hu))
  eq h h' := by rw [e1]; exact (sat_false.mp (eq_sat H h h')).sat
  lt h h' := by rw [e1]; exact (sat_false.mp (lt_sat H h h')).sat
  gt h h' := by rw [e2]; exact (sat_false.mp (gt_sat H h h')).sat
  psub v hv h := by rw [e3]; exact (sat_false.mp (psub_sat H h hv)).sat
  recip h _ := by
    rw [e4]
    exact (sat_false.mp (recip_sat H h)).sat.mono fun r hr => by cases r <;> exact hr
  isZero := by
    intro a x h
    rw [e5]
    obtain ⟨f, hf, df, rfl⟩ := h.hr
    refine (sat_false.mp (eqInt_sat H hf)).sat.mono fun r hr => hr.trans ?_
    constructor
    · rintro rfl; exact map_zero _
    · intro h'
      rw [← map_zero (AdjoinRoot.mk M)] at h'
      exact mk_inj df (by rw [degree_zero]; exact bot_lt_iff_ne_bot.mpr (by rwa [Ne, degree_eq_bot])) h'
  irrefl x := by
    obtain ⟨p, hp, rfl⟩ := exists_lowdeg hM x
    rw [ordM_mk hp hp]; exact polyLt_irrefl H p
  asymm x y := by
    obtain ⟨p, hp, rfl⟩ := exists_lowdeg hM x
    obtain ⟨q, hq, rfl⟩ := exists_lowdeg hM y
    rw [ordM_mk hp hq, ordM_mk hq hp]; exact polyLt_asymm H
  total x y := by
    obtain ⟨p, hp, rfl⟩ := exists_lowdeg hM x
    obtain ⟨q, hq, rfl⟩ := exists_lowdeg hM y
    rw [ordM_mk hp hq, ordM_mk hq hp]
    exact (polyLt_total H p q).imp_left fun h => by rw [h]

end CMod

namespace CPoly
/-! Methods that never negate a coefficient do not depend on `neg`. -/
section swapNeg
variable {α : Type} (O : CoefOps α) (ng : α → Res α)

def swapNeg : CoefOps α := { O with neg := ng }

theorem recLoop_swap (z : α) (cs : List α) : ∀ n, recLoop (swapNeg O ng) z cs n = recLoop O z cs n
  | 0 => rfl
  | n + 1 => by unfold recLoop; simp only [recLoop_swap z cs n]; rfl

theorem recompute_swap (p : CPoly α) : recompute_degree (swapNeg O ng) p = recompute_degree O p := by
  unfold recompute_degree; simp only [recLoop_swap]; rfl

theorem cmpLoop_swap (a b : List α) : ∀ n, cmpLoop (swapNeg O ng) a b n = cmpLoop O a b n
  | 0 => rfl
  | n + 1 => by unfold cmpLoop; simp only [cmpLoop_swap a b n]; rfl

theorem copy_swap (p : CPoly α) : copy (swapNeg O ng) p = copy O p := rfl

theorem eq_swap (a b : CPoly α) : eq (swapNeg O ng) a b = eq O a b := by
  unfold eq cmp; simp only [cmpLoop_swap]

theorem const_swap (c : α) : const (swapNeg O ng) c = const O c := recompute_swap O ng _

theorem psub_swap (p : CPoly α) (v : Int) : psub (swapNeg O ng) p v = psub O p v := by
  unfold psub; simp only [const_swap]; rfl

theorem eqConst_swap (p : CPoly α) (c : α) : eqConst (swapNeg O ng) p c = eqConst O p c := by
  unfold eqConst; simp only [const_swap, eq_swap]

theorem add_swap (a b : CPoly α) : add (swapNeg O ng) a b = add O a b := by
  unfold add; simp only [recompute_swap]; rfl

theorem mul_swap (a b : CPoly α) : mul (swapNeg O ng) a b = mul O a b := by
  unfold mul; simp only [recompute_swap]; rfl

theorem smul_swap (p : CPoly α) (c : α) : smul (swapNeg O ng) p c = smul O p c := by
  unfold smul; simp only [recompute_swap, copy_swap]; rfl

theorem divStep_swap (b : CPoly α) (c : α) : divStep (swapNeg O ng) b c = divStep O b c := by
  funext i s; unfold divStep; simp only [smul_swap]; rfl

theorem longDiv_swap (z : α) (a b : CPoly α) : longDiv (swapNeg O ng) z a b = longDiv O z a b := by
  unfold longDiv; simp only [copy_swap, divStep_swap, recompute_swap]; rfl

theorem quot_and_rem_swap (a b : CPoly α) : quot_and_rem (swapNeg O ng) a b = quot_and_rem O a b := by
  unfold quot_and_rem; simp only [eqConst_swap, psub_swap, copy_swap, longDiv_swap]; rfl

theorem gcdLoop_swap : ∀ (n : ℕ) (c d : CPoly α), gcdLoop (swapNeg O ng) n c d = gcdLoop O n c d
  | 0, _, _ => rfl
  | n + 1, c, d => by unfold gcdLoop; simp only [gcdLoop_swap n, quot_and_rem_swap]; rfl

theorem gcd_swap (a b : CPoly α) : gcd (swapNeg O ng) a b = gcd O a b := by
  unfold gcd; simp only [gcdLoop_swap, copy_swap]; rfl

theorem eval_swap (a : CPoly α) (c : α) : eval (swapNeg O ng) a c = eval O a c := rfl

theorem sub_swap (a b : CPoly α) (h : b.degree ≤ a.degree) : sub (swapNeg O ng) a b = sub O a b := by
  unfold sub; rw [if_neg (by omega), if_neg (by omega)]; simp only [recompute_swap]; rfl

end swapNeg
end CPoly

namespace FpMod
variable {p : ℕ} [hp : Fact p.Prime] {M : (ZMod p)[X]}

/-- fp_polymod_t as coefficients, allowing undefined behaviour (in unary minus). -/
theorem cops_ref (hb : p ≤ 46341) (hM : M ≠ 0) :
    CoefRef True FpMod.cops (CMod.Rep (IntMod.Rep p) M) (CMod.ordM (fun x y => x.val < y.val) M) := by
  have H := IntMod.cops_ref hp.out.two_le hb
  refine CMod.cref H hM rfl rfl rfl rfl rfl fun {a x} h => ?_
  rcases Nat.eq_zero_or_pos a.residue.degree with h0 | h0
  · exact (sat_false.mp (CMod.neg_const_sat H h h0)).sat
  · show (CMod.neg IntMod.cops a).Sat _ _
    rw [CMod.neg_ub H h h0]; trivial

/-- The same operations with a correct unary minus; used to reason about methods that never negate. -/
def copsNeg : CoefOps (CMod IntMod) := CPoly.swapNeg FpMod.cops fun a => do
  let z ← CMod.sub IntMod.cops a a
  CMod.sub IntMod.cops z a

theorem copsNeg_ref (hb : p ≤ 46341) (hM : M ≠ 0) :
    CoefRef False copsNeg (CMod.Rep (IntMod.Rep p) M) (CMod.ordM (fun x y => x.val < y.val) M) := by
  have H := IntMod.cops_ref hp.out.two_le hb
  refine CMod.cref H hM rfl rfl rfl rfl rfl fun {a x} h => ?_
  refine (CMod.sub_sat H h h).bind fun z hz => ?_
  rw [sub_self] at hz
  simpa using CMod.sub_sat H hz h

end FpMod
end Spffl
