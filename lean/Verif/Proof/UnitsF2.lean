/-
f2_polymod_units.cpp.
-/
import Mathlib.RingTheory.IntegralDomain
import Mathlib.FieldTheory.Finite.GaloisField
import Mathlib.FieldTheory.Minpoly.Field
import Verif.Proof.Units
import Verif.Proof.F2nFactor
import Verif.Proof.F2Irr
import Verif.Props.F2Factor

namespace Spffl
open Res Polynomial

/-- a generator of the group of units of a ring, as an element of the ring -/
def IsGen {R : Type} [CommRing R] (x : R) : Prop := ∀ u : Rˣ, ∃ k : ℕ, x ^ k = u

theorem isGen_iff {R : Type} [CommRing R] [Finite R] {x : R} (hx : IsUnit x) :
    IsGen x ↔ orderOf x = Nat.card Rˣ := by
  obtain ⟨u, rfl⟩ := hx
  rw [orderOf_units]
  constructor
  · intro h
    refine orderOf_eq_card_of_forall_mem_zpowers fun v => ?_
    obtain ⟨k, hk⟩ := h v
    exact ⟨k, Units.ext (by simpa using hk)⟩
  · intro h v
    have ht : Subgroup.zpowers u = ⊤ := Subgroup.eq_top_of_card_eq _ (by rw [Nat.card_zpowers, h])
    obtain ⟨k, hk⟩ := mem_powers_iff_mem_zpowers.mpr (show v ∈ Subgroup.zpowers u by rw [ht]; trivial)
    exact ⟨k, by rw [← hk]; simp⟩

theorem orderOf_facts {R : Type} [CommRing R] [Finite R] {x : R} (hx : IsUnit x) :
    0 < orderOf x ∧ orderOf x ∣ Nat.card Rˣ ∧ orderOf x ≤ Nat.card Rˣ ∧ 0 < Nat.card Rˣ := by
  obtain ⟨u, rfl⟩ := hx
  rw [orderOf_units]
  have := orderOf_dvd_natCard u
  exact ⟨orderOf_pos u, this, Nat.le_of_dvd Nat.card_pos this, Nat.card_pos⟩

namespace F2U
open F2P F2nP
variable {m : (ZMod 2)[X]} {V : Prop}

theorem finite_adjoin (hm0 : m ≠ 0) : Finite (AdjoinRoot m) := by
  refine Nat.finite_of_card_ne_zero ?_
  rw [natCard_eq hm0]; positivity

theorem kv_inj (hm0 : m ≠ 0) : Function.Injective (kv m) := by
  intro x y h
  obtain ⟨p, hp, rfl⟩ := exists_red hm0 x
  obtain ⟨q, hq, rfl⟩ := exists_red hm0 y
  rw [kv_mk hp, kv_mk hq] at h
  rw [nval_inj h]

theorem uref (hm0 : m ≠ 0) : Units.URef F2U.uops (F2Mod.Rep m) (kv m) where
  mul := F2Mod.mul_ok
  recip := fun h => (F2Mod.recip_ok h).mono fun r hr => by cases r <;> exact hr
  exp := fun h h1 h2 => F2Mod.exp_ok h h2 (Or.inl (by omega))
  div := by
    intro a x h hx
    obtain ⟨z, hz⟩ := hx.exists_right_inv
    have := F2Mod.div_ok h h hz
    rwa [hz] at this
  eq := by
    classical
    intro a b x y h h'
    show (F2Mod.eq a b).Ok _
    rw [F2Mod.eq_ok h h', Ok_ok]; simp
  lt := by
    intro a b x y h h'
    show (F2Mod.lt a b).Ok _
    unfold F2Mod.lt
    rw [F2Mod.check_ok h h', ok_bind, lt_ok h.cr.ne_nil h'.cr.ne_nil, Ok_ok, decide_eq_true_iff, kv_rep h, kv_rep h']
  key_inj := kv_inj hm0

theorem gcd_ne {r mm : F2P} (hr : Canon r) (hmc : Canon mm) (hm : toPoly mm = m) :
    ∃ g, F2P.gcd r mm = ok g ∧ ∃ b, F2P.ne g F2P.one = ok b ∧ (b = true ↔ ¬ IsUnit (AdjoinRoot.mk m (toPoly r))) := by
  obtain ⟨g, h1, h2, h3⟩ := gcd_ok hr hmc
  refine ⟨g, h1, _, F2Mod.ne_ok h3.ne_nil canon_one.ne_nil, ?_⟩
  rw [F2Mod.isUnit_mk, toPoly_one, ← hm, ← isGcd_eq_one_iff_F2 h2]; simp

/-- the totient, for every non-zero modulus -/
theorem totient_card {tm : TrimMask} (H : ∀ k, (tm k).Sat V fun _ => True) {mm : F2P} (hmc : Canon mm) (hm : toPoly mm = m)
    (hm0 : m ≠ 0) (hmax : (m.natDegree : Int) ≤ INT_MAX) (hlt : Nat.card (AdjoinRoot m)ˣ < 2147483647) :
    (F2P.totient tm mm).Sat V fun r => r = (Nat.card (AdjoinRoot m)ˣ : Int) := by
  subst hm
  rcases Nat.eq_zero_or_pos (toPoly mm).natDegree with h0 | hpos
  · obtain ⟨fi, h1, h2, -⟩ := Props.C53_constant tm hmc h0
    unfold F2P.totient
    rw [h1, ok_bind, h2]
    show (ok 1 : Res Int).Sat V _
    rw [Sat_ok]
    haveI := finite_adjoin hm0
    have hc : Nat.card (AdjoinRoot (toPoly mm)) = 1 := by rw [natCard_eq hm0, h0, pow_zero]
    haveI := (Nat.card_eq_one_iff_unique.mp hc).1
    have : Nat.card (AdjoinRoot (toPoly mm))ˣ = 1 := Nat.card_eq_one_iff_unique.mpr ⟨inferInstance, inferInstance⟩
    rw [this]; rfl
  · rw [card_units hm0] at hlt ⊢
    exact totient_sat H hmc hpos hlt hmax

theorem order_sat {tm : TrimMask} (H : ∀ k, (tm k).Sat V fun _ => True) {a : F2Mod} {x : AdjoinRoot m} (ha : F2Mod.Rep m a x)
    (hx : IsUnit x) (hmax : (m.natDegree : Int) ≤ INT_MAX) (hlt : Nat.card (AdjoinRoot m)ˣ < 2147483647)
    (hp : ∀ p : ℕ, p.Prime → p ∣ Nat.card (AdjoinRoot m)ˣ →
      p ^ 2 ^ Nat.size ((Nat.card (AdjoinRoot m)ˣ).factorization p) ≤ 2147483647) :
    (order tm a).Sat V fun r => r = (orderOf x : Int) := by
  haveI := finite_adjoin ha.m_ne
  unfold order
  obtain ⟨g, h1, b, h2, h3⟩ := gcd_ne ha.cr ha.cm ha.hm
  rw [h1, ok_bind, h2, ok_bind, if_neg (by rw [h3, ha.val]; simpa using hx)]
  refine (totient_card H ha.cm ha.hm ha.m_ne hmax hlt).bind fun phi hphi => ?_
  subst hphi
  obtain ⟨o1, o2, o3, o4⟩ := orderOf_facts hx
  obtain ⟨L, hL, hs, hmem⟩ := Units.phi_divisors_ok o4 (by omega) hp
  rw [hL, ok_bind]
  obtain ⟨-, one, hone, honer⟩ := F2Mod.zero_one ha
  rw [hone, ok_bind, Units.orderLoop_ok (uref ha.m_ne) ha honer o1 L (fun d hd => ?_) hs ((hmem _).mpr ⟨by omega, by exact_mod_cast o2⟩),
    Sat_ok]
  obtain ⟨d1, d2⟩ := (hmem d).mp hd
  have := Int.le_of_dvd (by omega) d2
  exact ⟨d1, by unfold INT_MAX; omega⟩

theorem order_throw {tm : TrimMask} {a : F2Mod} {x : AdjoinRoot m} (ha : F2Mod.Rep m a x) (hx : ¬ IsUnit x) :
    order tm a = throw := by
  unfold order
  obtain ⟨g, h1, b, h2, h3⟩ := gcd_ne ha.cr ha.cm ha.hm
  rw [h1, ok_bind, h2, ok_bind, if_pos (by rw [h3, ha.val]; exact hx)]

/-! ### generators -/

theorem exists_elt (n : ℕ) : ∃ p : (ZMod 2)[X], nval p = n := by
  induction n with
  | zero => exact ⟨0, by simp [nval]⟩
  | succ n ih =>
    obtain ⟨p, rfl⟩ := ih
    obtain ⟨a, ha, rfl⟩ := exists_canon p
    obtain ⟨r, -, h, -⟩ := increment_ok ha
    exact ⟨_, h⟩

/-- a field of this form has a generator -/
theorem exists_gen (hm : Irreducible m) : ∃ x : AdjoinRoot m, IsUnit x ∧ orderOf x = Nat.card (AdjoinRoot m)ˣ := by
  haveI := Fact.mk hm
  haveI := finite_adjoin hm.ne_zero
  obtain ⟨g, hg⟩ := IsCyclic.exists_generator (α := (AdjoinRoot m)ˣ)
  exact ⟨g, g.isUnit, by rw [orderOf_units]; exact orderOf_eq_card_of_forall_mem_zpowers hg⟩

theorem find_generator_sat {tm : TrimMask} (H : ∀ k, (tm k).Sat V fun _ => True) {mm : F2P} (hmc : Canon mm) (hm : toPoly mm = m)
    (hirr : Irreducible m) (hmax : (m.natDegree : Int) ≤ INT_MAX) (hlt : Nat.card (AdjoinRoot m)ˣ < 2147483647)
    (hp : ∀ p : ℕ, p.Prime → p ∣ Nat.card (AdjoinRoot m)ˣ →
      p ^ 2 ^ Nat.size ((Nat.card (AdjoinRoot m)ˣ).factorization p) ≤ 2147483647) :
    (find_generator tm mm).Sat V fun r => ∃ g x, r = some g ∧ F2Mod.Rep m g x ∧ IsUnit x ∧ orderOf x = Nat.card (AdjoinRoot m)ˣ ∧
      ∀ y : AdjoinRoot m, IsUnit y → orderOf y = Nat.card (AdjoinRoot m)ˣ → kv m x ≤ kv m y := by
  haveI := Fact.mk hirr
  have hm0 := hirr.ne_zero
  haveI := finite_adjoin hm0
  unfold find_generator
  rw [find_degree_ok, ok_bind, hm, if_neg (by have := hirr.natDegree_pos; omega)]
  refine (totient_card H hmc hm hm0 hmax hlt).bind fun phi hphi => ?_
  subst hphi
  obtain ⟨w, hw1, hw2⟩ := exists_gen hirr
  obtain ⟨wp, hwp, rfl⟩ := exists_red hm0 w
  have hwn := nval_lt_of_degree_lt hm0 hwp
  let elt : ℕ → AdjoinRoot m := fun n => AdjoinRoot.mk m (exists_elt n).choose
  have helt : ∀ p : (ZMod 2)[X], elt (nval p) = AdjoinRoot.mk m p := fun p => by
    show AdjoinRoot.mk m _ = _
    rw [nval_inj (exists_elt (nval p)).choose_spec]
  have hel2 : ∀ n, ∃ p, nval p = n ∧ elt n = AdjoinRoot.mk m p := fun n => by
    obtain ⟨p, rfl⟩ := exists_elt n
    exact ⟨p, rfl, helt p⟩
  have hunit : ∀ n, 0 < n → n < 2 ^ m.natDegree → IsUnit (elt n) := by
    intro n hn hn2
    obtain ⟨p, rfl, hp⟩ := hel2 n
    rw [hp, isUnit_iff_ne_zero]
    intro h0
    rw [AdjoinRoot.mk_eq_zero] at h0
    have := eq_zero_of_dvd_of_degree_lt h0 (degree_lt_of_nval hm0 hn2)
    rw [this] at hn; simp [nval] at hn
  have hw0 : 0 < nval wp := by
    rcases Nat.eq_zero_or_pos (nval wp) with h0 | h0
    · have : wp = 0 := nval_inj (by rw [h0]; simp [nval])
      rw [this, map_zero] at hw1
      exact absurd hw1 not_isUnit_zero
    · exact h0
  refine (Units.genLoop_sat (rep := F2Mod.Rep m) (srep := fun (s : F2P) n => Canon s ∧ nval (toPoly s) = n)
    (Q := 2 ^ m.natDegree) (elt := elt) (V := V) ?_ ?_ ?_ ?_ hwn (by rw [helt]; exact hw2) (2 ^ m.natDegree + 1) F2P.one 1
    ⟨canon_one, ?_⟩ one_pos hw0 (by omega)).mono ?_
  · rintro s n ⟨hs, rfl⟩
    rw [find_degree_ok, ok_bind, Ok_ok, decide_eq_true_iff]
    constructor
    · intro h
      exact (nval_lt_pow _).trans_le (Nat.pow_le_pow_right (by norm_num) h)
    · intro h
      by_cases h0 : toPoly s = 0
      · rw [h0, natDegree_zero]; exact hirr.natDegree_pos
      · exact natDegree_lt_natDegree h0 (degree_lt_of_nval hm0 h)
  · rintro s n ⟨hs, rfl⟩ _
    rw [helt]
    exact (F2Mod.mk'_ok hs.good hmc hm hm0).mono fun a ha => ha.1
  · rintro s n ⟨hs, rfl⟩ _
    exact (increment_ok hs).mono fun r hr => ⟨hr.2, hr.1⟩
  · intro a n h1 h2 ha
    exact order_sat H ha (hunit n h1 h2) hmax hlt hp
  · rw [toPoly_one]
    have := nval_X_pow 0
    simpa using this
  · rintro r ⟨g, rfl, c, c1, c2, hg, ho, hmin⟩
    obtain ⟨p, rfl, hpe⟩ := hel2 c
    have hcQ : nval p < 2 ^ m.natDegree := by omega
    refine ⟨g, _, rfl, hg, hunit _ c1 hcQ, ho, fun y hy hyo => ?_⟩
    obtain ⟨q, hq, rfl⟩ := exists_red hm0 y
    rw [hpe, kv_mk (degree_lt_of_nval hm0 hcQ), kv_mk hq]
    by_contra hlt
    have hq0 : 1 ≤ nval q := by
      rcases Nat.eq_zero_or_pos (nval q) with h0 | h0
      · have : q = 0 := nval_inj (by rw [h0]; simp [nval])
        rw [this, map_zero] at hy
        exact absurd hy not_isUnit_zero
      · exact h0
    exact hmin (nval q) hq0 (by omega) (by rw [helt]; exact hyo)

/-! ### logarithms -/

theorem log_sat {qs : List (F2Mod × ℕ) → List (F2Mod × ℕ)} (hqs : IsQsort F2Mod.lt qs) {g a : F2Mod} {w x : AdjoinRoot m}
    (hg : F2Mod.Rep m g w) (ha : F2Mod.Rep m a x) (hd : m.natDegree ≤ 30) :
    (IsUnit w → ((log qs g a = throw ∧ ¬ ∃ r : ℕ, w ^ r = x) ∨ ∃ r : ℕ, log qs g a = ok (r : Int) ∧ r < 2 ^ 31 ∧ w ^ r = x)) ∧
    (¬ IsUnit w → log qs g a = throw) := by
  haveI := finite_adjoin hg.m_ne
  unfold log
  rw [find_degree_ok, ok_bind, hg.hm, ishl_one (by omega), ok_bind]
  obtain ⟨k, h1, h2, h3, h4⟩ := Units.sqrt_ceil_ok (n := 2 ^ m.natDegree) Nat.one_le_two_pow (Nat.pow_le_pow_right (by norm_num) hd)
  rw [show ((2 : Int) ^ m.natDegree) = ((2 ^ m.natDegree : ℕ) : Int) by push_cast; rfl, h1, ok_bind, Int.toNat_natCast]
  refine ⟨fun hw => ?_, fun hw => Units.bsgs_nonunit (uref hg.m_ne) qs a hg hw h2⟩
  obtain ⟨o1, -, o3, -⟩ := orderOf_facts hw
  have hcard : Nat.card (AdjoinRoot m)ˣ ≤ 2 ^ m.natDegree := by
    rw [← natCard_eq hg.m_ne]
    exact Nat.card_le_card_of_injective _ Units.val_injective
  rcases Units.bsgs_ok (uref hg.m_ne) hqs hg ha hw h2 h4 o1 (by omega) with h | ⟨r, e1, e3, e2⟩
  · exact Or.inl h
  · exact Or.inr ⟨r, e1, by omega, e2⟩

/-! ### primitivity and period -/

theorem primLoop_ok {a one : F2Mod} {x : AdjoinRoot m} (ha : F2Mod.Rep m a x) (hone : F2Mod.Rep m one 1) :
    ∀ L : List Int, (∀ d ∈ L, 0 < d ∧ d ≤ INT_MAX) →
      (primLoop a one L).Ok fun b => b = true ↔ ∀ d ∈ L, x ^ d.toNat ≠ 1 := by
  intro L
  induction L with
  | nil => intro _; unfold primLoop; rw [Ok_ok]; simp
  | cons d l ih =>
    intro hb
    unfold primLoop
    obtain ⟨hd0, hd1⟩ := hb d (by simp)
    obtain ⟨e, rfl⟩ : ∃ e : ℕ, d = e := ⟨d.toNat, by omega⟩
    refine ((uref ha.m_ne).exp ha (e := e) (by omega) hd1).bind fun ap hapr => ?_
    refine ((uref ha.m_ne).eq hapr hone).bind fun b hbr => ?_
    by_cases hb1 : b = true
    · rw [if_pos hb1, Ok_ok]
      simp [hbr.mp hb1]
    · rw [if_neg hb1]
      refine (ih fun d hd => hb d (by simp [hd])).mono fun r hr => ?_
      rw [hr]
      have : ¬ x ^ e = 1 := fun h => hb1 (hbr.mpr h)
      simp [this]

theorem is_primitive_sat {tm : TrimMask} (H : ∀ k, (tm k).Sat V fun _ => True) {mm : F2P} (hmc : Canon mm) (hm : toPoly mm = m)
    (hm0 : m ≠ 0) (hmax : (m.natDegree : Int) ≤ INT_MAX)
    (hlt : IsUnit (AdjoinRoot.root m) → Nat.card (AdjoinRoot m)ˣ < 2147483647) :
    (is_primitive tm mm).Sat V fun b => b = true ↔
      (IsUnit (AdjoinRoot.root m) ∧ orderOf (AdjoinRoot.root m) = Nat.card (AdjoinRoot m)ˣ) := by
  haveI := finite_adjoin hm0
  unfold is_primitive
  obtain ⟨g, h1, b, h2, h3⟩ := gcd_ne (m := m) canon_x hmc hm
  rw [h1, ok_bind, h2, ok_bind]
  rw [toPoly_x, AdjoinRoot.mk_X] at h3
  by_cases hx : IsUnit (AdjoinRoot.root m)
  · rw [if_neg (by rw [h3]; simpa using hx)]
    obtain ⟨one, hone, honer, -⟩ := F2Mod.mk'_ok canon_one.good hmc hm hm0
    obtain ⟨xx, hxx, hxxr, -⟩ := F2Mod.mk'_ok canon_x.good hmc hm hm0
    rw [toPoly_one, map_one] at honer
    rw [toPoly_x, AdjoinRoot.mk_X] at hxxr
    rw [hone, ok_bind, hxx, ok_bind]
    refine (totient_card H hmc hm hm0 hmax (hlt hx)).bind fun phi hphi => ?_
    subst hphi
    obtain ⟨o1, o2, o3, o4⟩ := orderOf_facts hx
    have hlt := hlt hx
    generalize Nat.card (AdjoinRoot m)ˣ = N at *
    rcases Nat.eq_or_lt_of_le o4 with hN | hN
    · have hN : N = 1 := by omega
      subst hN
      rw [show int_factor ((1 : ℕ) : Int) = ok ⟨[], some 1⟩ by decide +kernel, ok_bind]
      show (ok true : Res Bool).Sat V _
      rw [Sat_ok]
      have : orderOf (AdjoinRoot.root m) = 1 := by omega
      simp [hx, this]
    · obtain ⟨L, hL, hs, hmem⟩ := FacInfo.C35_maximal_divisors (N : Int) (by omega) (by unfold InInt; omega) (by unfold INT_MIN; omega)
      rw [bind_eq_ok] at hL
      obtain ⟨fi, hfi, hL⟩ := hL
      rw [hfi, ok_bind, hL, ok_bind]
      dsimp only
      have hLp : ∀ d ∈ L, 0 < d ∧ d ≤ INT_MAX := by
        intro d hd
        obtain ⟨p, hp, hdp⟩ := (hmem d).mp hd
        have hp2 : (2 : Int) ≤ p := by exact_mod_cast hp.two_le
        unfold INT_MAX
        constructor
        · by_contra hneg
          nlinarith
        · nlinarith
      refine (primLoop_ok hxxr honer L hLp).sat.bind fun b hb => ?_
      by_cases hb1 : b = true
      · rw [if_pos hb1]
        have hb2 := hb.mp hb1
        refine ((uref hm0).exp hxxr (e := N) (by omega) (by unfold INT_MAX; omega)).sat.bind fun p hp => ?_
        refine ((uref hm0).eq hp honer).sat.mono fun c hc => ?_
        rw [hc]
        constructor
        · intro hpow
          refine ⟨hx, orderOf_eq_of_pow_and_pow_div_prime (by omega) hpow fun p hp hpN hpe => ?_⟩
          have hd : N / p * p = N := Nat.div_mul_cancel hpN
          exact hb2 ((N / p : ℕ) : Int) ((hmem _).mpr ⟨p, hp, by exact_mod_cast hd⟩) (by rw [Int.toNat_natCast]; exact hpe)
        · rintro ⟨-, ho⟩
          rw [← ho, pow_orderOf_eq_one]
      · rw [if_neg hb1, Sat_ok]
        rw [hb] at hb1
        push Not at hb1
        obtain ⟨d, hd, hpow⟩ := hb1
        simp only [Bool.false_eq_true, false_iff, not_and]
        intro _ ho
        obtain ⟨p, hp, hdp⟩ := (hmem d).mp hd
        have h5 := (hLp d hd).1
        have h4 := orderOf_le_of_pow_eq_one (by omega) hpow
        have hp2 : (2 : Int) ≤ p := by exact_mod_cast hp.two_le
        have h6 : (N : Int) ≤ d := by omega
        nlinarith
  · rw [if_pos (h3.mpr hx), Sat_ok]
    simp [hx]

theorem period_sat {tm : TrimMask} (H : ∀ k, (tm k).Sat V fun _ => True) {mm : F2P} (hmc : Canon mm) (hm : toPoly mm = m)
    (hm0 : m ≠ 0) (hx : IsUnit (AdjoinRoot.root m)) (hmax : (m.natDegree : Int) ≤ INT_MAX) (hlt : Nat.card (AdjoinRoot m)ˣ < 2147483647)
    (hp : ∀ p : ℕ, p.Prime → p ∣ Nat.card (AdjoinRoot m)ˣ →
      p ^ 2 ^ Nat.size ((Nat.card (AdjoinRoot m)ˣ).factorization p) ≤ 2147483647) :
    (period tm mm).Sat V fun r => r = (orderOf (AdjoinRoot.root m) : Int) := by
  unfold period
  obtain ⟨g, h1, b, h2, h3⟩ := gcd_ne (m := m) canon_x hmc hm
  rw [h1, ok_bind, h2, ok_bind]
  rw [toPoly_x, AdjoinRoot.mk_X] at h3
  rw [if_neg (by rw [h3]; simpa using hx)]
  obtain ⟨xx, hxx, hxxr, -⟩ := F2Mod.mk'_ok canon_x.good hmc hm hm0
  rw [toPoly_x, AdjoinRoot.mk_X] at hxxr
  rw [hxx, ok_bind]
  exact order_sat H hxxr hx hmax hlt hp

theorem period_zero {tm : TrimMask} {mm : F2P} (hmc : Canon mm) (hm : toPoly mm = m) (hx : ¬ IsUnit (AdjoinRoot.root m)) :
    period tm mm = ok 0 := by
  unfold period
  obtain ⟨g, h1, b, h2, h3⟩ := gcd_ne (m := m) canon_x hmc hm
  rw [h1, ok_bind, h2, ok_bind]
  rw [toPoly_x, AdjoinRoot.mk_X] at h3
  rw [if_pos (h3.mpr hx)]

/-- `x` generates the group of units of F2[x]/(m) -/
def Prim (m : (ZMod 2)[X]) : Prop := IsUnit (AdjoinRoot.root m) ∧ orderOf (AdjoinRoot.root m) = Nat.card (AdjoinRoot m)ˣ

theorem isUnit_root_iff {m : (ZMod 2)[X]} : IsUnit (AdjoinRoot.root m) ↔ m.coeff 0 ≠ 0 := by
  rw [← AdjoinRoot.mk_X, F2Mod.isUnit_mk]
  rw [(irreducible_X (R := ZMod 2)).coprime_iff_not_dvd, X_dvd_iff]

/-- primitive irreducible polynomials of every degree exist -/
theorem exists_prim {d : ℕ} (hd : 1 ≤ d) : ∃ w : (ZMod 2)[X], Irreducible w ∧ w.natDegree = d ∧ Prim w := by
  haveI : Fact (Nat.Prime 2) := ⟨Nat.prime_two⟩
  obtain ⟨g, hg⟩ := IsCyclic.exists_generator (α := (GaloisField 2 d)ˣ)
  have hint : IsIntegral (ZMod 2) (g : GaloisField 2 d) := Algebra.IsIntegral.isIntegral _
  have htop : IntermediateField.adjoin (ZMod 2) {(g : GaloisField 2 d)} = ⊤ := by
    rw [eq_top_iff]
    intro y _
    by_cases hy : y = 0
    · rw [hy]; exact zero_mem _
    · obtain ⟨k, hk⟩ := mem_powers_iff_mem_zpowers.mpr (hg (Units.mk0 y hy))
      have : y = (g : GaloisField 2 d) ^ k := by
        have := congrArg Units.val hk
        simpa using this.symm
      rw [this]
      exact pow_mem (IntermediateField.mem_adjoin_simple_self _ _) k
  have hirr := minpoly.irreducible hint
  have hdeg : (minpoly (ZMod 2) (g : GaloisField 2 d)).natDegree = d := by
    rw [← IntermediateField.adjoin.finrank hint, htop, IntermediateField.finrank_top', GaloisField.finrank 2 (by omega)]
  refine ⟨_, hirr, hdeg, ?_⟩
  haveI := Fact.mk hirr
  have hm0 := hirr.ne_zero
  haveI := finite_adjoin hm0
  let φ : AdjoinRoot (minpoly (ZMod 2) (g : GaloisField 2 d)) →+* GaloisField 2 d :=
    AdjoinRoot.lift (algebraMap (ZMod 2) _) (g : GaloisField 2 d) (minpoly.aeval _ _)
  have hφ : φ (AdjoinRoot.root _) = g := AdjoinRoot.lift_root _
  have hinj : Function.Injective φ := φ.injective
  have ho : orderOf (AdjoinRoot.root (minpoly (ZMod 2) (g : GaloisField 2 d))) = orderOf (g : GaloisField 2 d) := by
    have := orderOf_injective φ.toMonoidHom hinj (AdjoinRoot.root _)
    rw [← this]
    exact congrArg orderOf hφ
  have hu : IsUnit (AdjoinRoot.root (minpoly (ZMod 2) (g : GaloisField 2 d))) := by
    rw [isUnit_iff_ne_zero]
    intro h0
    rw [h0, map_zero] at hφ
    exact g.ne_zero hφ.symm
  refine ⟨hu, ?_⟩
  rw [ho, orderOf_units, orderOf_eq_card_of_forall_mem_zpowers hg]
  haveI := Fintype.ofFinite (AdjoinRoot (minpoly (ZMod 2) (g : GaloisField 2 d)))
  rw [Nat.card_units, Nat.card_units, natCard_eq hm0, hdeg, GaloisField.card 2 d (by omega)]

theorem card_units_le (hm0 : m ≠ 0) : Nat.card (AdjoinRoot m)ˣ ≤ 2 ^ m.natDegree := by
  haveI := finite_adjoin hm0
  rw [← natCard_eq hm0]
  exact Nat.card_le_card_of_injective _ Units.val_injective

/-! ### search for primitive polynomials -/

/-- what the search looks for -/
def Want (need_irr : Bool) (w : (ZMod 2)[X]) : Prop := Prim w ∧ (need_irr = true → Irreducible w)

theorem primTest_sat {tm : TrimMask} (H : ∀ k, (tm k).Sat V fun _ => True) (ni : Bool) {mm : F2P} (hmc : Canon mm)
    (hm0 : toPoly mm ≠ 0) (hd : (toPoly mm).natDegree ≤ 30) :
    (primTest tm ni mm).Sat V fun b => b = true ↔ Want ni (toPoly mm) := by
  unfold primTest
  have hmax : ((toPoly mm).natDegree : Int) ≤ INT_MAX := by unfold INT_MAX; omega
  have hlt : Nat.card (AdjoinRoot (toPoly mm))ˣ < 2147483647 :=
    lt_of_le_of_lt ((card_units_le hm0).trans (Nat.pow_le_pow_right (by norm_num) hd)) (by norm_num)
  refine (is_primitive_sat H hmc rfl hm0 hmax fun _ => hlt).bind fun b hb => ?_
  by_cases hb1 : b = true
  · rw [if_pos hb1]
    have hb2 := hb.mp hb1
    cases ni with
    | false => rw [if_neg (by simp), Sat_ok]; simp [Want]; exact hb2
    | true =>
      rw [if_pos rfl]
      refine (is_irreducible_sat H hmc hmax).mono fun c hc => ?_
      rw [hc]; unfold Want Prim; simp [hb2]
  · rw [if_neg hb1, Sat_ok]
    rw [hb] at hb1
    simp only [Bool.false_eq_true, false_iff]
    exact fun h => hb1 h.1

theorem primSearch_sat {tm : TrimMask} (H : ∀ k, (tm k).Sat V fun _ => True) {ni : Bool} {d : ℕ} (hd : d ≤ 30)
    {w : (ZMod 2)[X]} (hw : Want ni w) (hwd : w.natDegree = d) :
    ∀ (k : ℕ) (rv : F2P), Canon rv → 2 ^ d ≤ nval (toPoly rv) →
    (∀ p : (ZMod 2)[X], Want ni p → p.natDegree = d → nval (toPoly rv) ≤ nval p) →
    2 ^ (d + 1) < nval (toPoly rv) + k →
    (primSearch tm d ni k rv).Sat V (fun r => Canon r ∧ Want ni (toPoly r) ∧ (toPoly r).natDegree = d ∧
      ∀ p : (ZMod 2)[X], Want ni p → p.natDegree = d → nval (toPoly r) ≤ nval p)
  | 0, rv, _, _, hle, hk => by
    have h1 := hle w hw hwd
    have h2 := nval_lt_pow w
    rw [hwd] at h2; omega
  | k + 1, rv, hc, hge, hle, hk => by
    have h1 := hle w hw hwd
    have h2 := nval_lt_pow w
    rw [hwd] at h2
    have hdd : (toPoly rv).natDegree = d := natDegree_of_nval hge (by omega)
    have h0 : toPoly rv ≠ 0 := by
      intro h; rw [h] at hge
      have : 0 < 2 ^ d := by positivity
      simp [nval] at hge
    unfold primSearch
    rw [find_degree_ok, ok_bind, hdd, if_pos rfl]
    refine (primTest_sat H ni hc h0 (by omega)).bind fun b hb => ?_
    by_cases hbt : b = true
    · rw [if_pos hbt, Sat_ok]
      exact ⟨hc, hb.mp hbt, hdd, hle⟩
    · rw [if_neg hbt]
      obtain ⟨r1, hr1, n1, c1⟩ := increment_ok hc
      rw [hr1, ok_bind]
      refine primSearch_sat H hd hw hwd k r1 c1 (by omega) (fun p hp hpd => ?_) (by omega)
      have h3 := hle p hp hpd
      have h4 : nval (toPoly rv) ≠ nval p := by
        intro h; rw [nval_inj h] at hb; exact hbt (hb.mpr hp)
      omega

theorem find_prim_sat {tm : TrimMask} (H : ∀ k, (tm k).Sat V fun _ => True) (ni : Bool) {d : ℕ} (hd1 : 1 ≤ d) (hd : d ≤ 30) :
    (find_prim tm d ni).Sat V (fun r => Canon r ∧ Want ni (toPoly r) ∧ (toPoly r).natDegree = d ∧
      ∀ p : (ZMod 2)[X], Want ni p → p.natDegree = d → nval (toPoly r) ≤ nval p) := by
  unfold find_prim
  obtain ⟨r1, hr1, t1, c1⟩ := set_bit_new (ps := zero) canon_zero.ne_nil (n := d) (by
    have := coeff_toPoly zero d
    rw [toPoly_zero] at this
    cases h : bitAt zero d with
    | false => rfl
    | true => rw [h] at this; simp at this)
  rw [toPoly_zero, zero_add] at t1
  obtain ⟨r2, hr2, t2, c2⟩ := set_bit_new (ps := r1) (c1 canon_zero).ne_nil (n := 0) (by
    have := coeff_toPoly r1 0
    rw [t1, coeff_X_pow, if_neg (by omega)] at this
    cases h : bitAt r1 0 with
    | false => rfl
    | true => rw [h] at this; simp at this)
  rw [t1, pow_zero] at t2
  rw [hr1, ok_bind, show ((0 : ℕ) : Int) = 0 from rfl] at *
  rw [hr2, ok_bind, if_neg (by omega), Int.toNat_natCast]
  have hn : nval (toPoly r2) = 2 ^ d + 1 := by
    rw [t2]
    have := nval_add_pow (p := X ^ d) (n := 0) (by rw [coeff_X_pow, if_neg (by omega)])
    rw [pow_zero, pow_zero] at this
    rw [this, nval_X_pow]
  obtain ⟨w, w1, w2, w3⟩ := exists_prim hd1
  refine primSearch_sat H hd (w := w) ⟨w3, fun _ => w1⟩ w2 _ r2 (c2 (c1 canon_zero)) (by omega) (fun p hp hpd => ?_) ?_
  · have hp0 := isUnit_root_iff.mp hp.1.1
    have hpn : p ≠ 0 := by rintro rfl; simp at hp0
    have h1 := pow_le_nval hpn
    rw [hpd] at h1
    have h2 := (nval_odd p).mpr hp0
    obtain ⟨k, rfl⟩ : ∃ k, d = k + 1 := ⟨d - 1, by omega⟩
    rw [pow_succ] at h1 hn; omega
  · rw [hn, pow_succ]; omega

theorem find_prim_throw (tm : TrimMask) (ni : Bool) {d : Int} (hd : d < 1) : find_prim tm d ni = throw := by
  unfold find_prim
  by_cases h : d < 0
  · have : set_bit zero d = throw := by unfold set_bit; rw [if_pos h]
    rw [this]; rfl
  · have : d = 0 := by omega
    subst this
    rw [show set_bit zero 0 = ok [1#64] by decide, ok_bind, show set_bit [1#64] 0 = ok [1#64] by decide, ok_bind,
      if_pos (by norm_num)]

theorem random_prim_from_sat {tm : TrimMask} (H : ∀ k, (tm k).Sat False fun _ => True) (ni : Bool) :
    ∀ l : List F2P, (∀ p ∈ l, Canon p ∧ toPoly p ≠ 0 ∧ (toPoly p).natDegree ≤ 30) →
      (random_prim_from tm ni l = timeout ∧ ∀ p ∈ l, ¬ Want ni (toPoly p)) ∨
      ∃ r ∈ l, random_prim_from tm ni l = ok r ∧ Want ni (toPoly r) := by
  intro l
  induction l with
  | nil => intro _; left; exact ⟨rfl, by simp⟩
  | cons p l ih =>
    intro hl
    obtain ⟨h1, h2, h3⟩ := hl p (by simp)
    obtain ⟨b, hb, hbr⟩ := sat_false.mp (primTest_sat H ni h1 h2 h3)
    unfold random_prim_from
    rw [hb, ok_bind]
    by_cases hb1 : b = true
    · rw [if_pos hb1]
      exact Or.inr ⟨p, by simp, rfl, hbr.mp hb1⟩
    · rw [if_neg hb1]
      rcases ih fun q hq => hl q (by simp [hq]) with ⟨e1, e2⟩ | ⟨r, e0, e1, e2⟩
      · left
        refine ⟨e1, fun q hq => ?_⟩
        rcases List.mem_cons.mp hq with rfl | hq
        · exact fun h => hb1 (hbr.mpr h)
        · exact e2 q hq
      · exact Or.inr ⟨r, by simp [e0], e1, e2⟩

end F2U
end Spffl
