/-
f2n_polymod_units.cpp over the field F2[x]/(m), m irreducible.
-/
import Verif.Proof.UnitsF2
import Verif.Proof.CMod
import Verif.Props.PolyFactor

namespace Spffl
open Res Polynomial
open CPoly (PRep)

namespace F2nU
open F2nP (kv)
variable {m : (ZMod 2)[X]} [hm : Fact (Irreducible m)] [Fintype (AdjoinRoot m)] {M : (AdjoinRoot m)[X]}

/-- the key of a polynomial over the field: its coefficients as digits -/
noncomputable abbrev pk (m : (ZMod 2)[X]) [Fact (Irreducible m)] [Fintype (AdjoinRoot m)] (f : (AdjoinRoot m)[X]) : ℕ :=
  polyKey (Fintype.card (AdjoinRoot m)) (kv m) f

open Classical in
/-- the key of a residue class: that of its reduced representative -/
noncomputable def kM (M : (AdjoinRoot m)[X]) (x : AdjoinRoot M) : ℕ :=
  if h : ∃ p : (AdjoinRoot m)[X], p.degree < M.degree ∧ AdjoinRoot.mk M p = x then pk m h.choose else 0

theorem kM_mk {p : (AdjoinRoot m)[X]} (hp : p.degree < M.degree) : kM M (AdjoinRoot.mk M p) = pk m p := by
  have h : ∃ q : (AdjoinRoot m)[X], q.degree < M.degree ∧ AdjoinRoot.mk M q = AdjoinRoot.mk M p := ⟨p, hp, rfl⟩
  unfold kM
  rw [dif_pos h, CMod.mk_inj h.choose_spec.1 hp h.choose_spec.2]

theorem natCard_eq (hM : M ≠ 0) : Nat.card (AdjoinRoot M) = Fintype.card (AdjoinRoot m) ^ M.natDegree := by
  have e : {g : (AdjoinRoot m)[X] // g.degree < M.natDegree} ≃ AdjoinRoot M := by
    refine Equiv.ofBijective (fun g => AdjoinRoot.mk M g.1) ⟨fun a b h => ?_, fun x => ?_⟩
    · refine Subtype.ext (CMod.mk_inj ?_ ?_ h)
      · rw [degree_eq_natDegree hM]; exact a.2
      · rw [degree_eq_natDegree hM]; exact b.2
    · obtain ⟨p, h1, h2⟩ := CMod.exists_lowdeg hM x
      exact ⟨⟨p, by rw [← degree_eq_natDegree hM]; exact h1⟩, h2⟩
  rw [← Nat.card_congr e, card_degree_lt]

theorem finite_adjoin (hM : M ≠ 0) : Finite (AdjoinRoot M) := by
  refine Nat.finite_of_card_ne_zero ?_
  rw [natCard_eq hM]
  have := Fintype.card_pos (α := AdjoinRoot m)
  positivity

theorem lt_iff {f g : (AdjoinRoot m)[X]} : CPoly.polyLt (fun x y => kv m x < kv m y) f g ↔ pk m f < pk m g := by
  have D := F2nP.digits (m := m)
  constructor
  · exact fun h => D.key_lt_key h
  · intro h
    have R := F2Mod.cops_ref hm.out.ne_zero
    rw [F2nP.ordQ_kv hm.out.ne_zero] at R
    rcases CPoly.polyLt_total R f g with e | e | e
    · rw [e] at h; exact absurd h (lt_irrefl _)
    · exact e
    · exact absurd (D.key_lt_key e) (by unfold pk at h; omega)

abbrev R2 (m : (ZMod 2)[X]) [Fact (Irreducible m)] (M : (AdjoinRoot m)[X]) := CMod.Rep (F2Mod.Rep m) M

theorem uref (hM : M ≠ 0) : Units.URef F2nU.uops (R2 m M) (kM M) where
  mul h h' := sat_false.mp (CMod.mul_sat (F2Mod.cops_ref hm.out.ne_zero) h h')
  recip h := (sat_false.mp (CMod.recip_sat (F2Mod.cops_ref hm.out.ne_zero) h)).mono fun r hr => by cases r <;> exact hr
  exp h h1 h2 := sat_false.mp (CMod.exp_nonneg_sat (F2Mod.cops_ref hm.out.ne_zero) h h2 (Or.inl (by omega)))
  div := by
    intro a x h hx
    obtain ⟨z, hz⟩ := hx.exists_right_inv
    have := CMod.div_sat (F2Mod.cops_ref hm.out.ne_zero) h h hz
    rw [hz] at this
    exact sat_false.mp this
  eq h h' := sat_false.mp (CMod.eq_sat (F2Mod.cops_ref hm.out.ne_zero) h h')
  lt := by
    intro a b x y h h'
    refine (sat_false.mp (CMod.lt_sat (F2Mod.cops_ref hm.out.ne_zero) h h')).mono fun r hr => ?_
    rw [hr, F2nP.ordQ_kv hm.out.ne_zero]
    obtain ⟨f, -, df, rfl⟩ := h.hr
    obtain ⟨g, -, dg, rfl⟩ := h'.hr
    rw [CMod.ordM_mk df dg, kM_mk df, kM_mk dg, lt_iff]
  key_inj := by
    intro x y h
    obtain ⟨p, hp, rfl⟩ := CMod.exists_lowdeg hM x
    obtain ⟨q, hq, rfl⟩ := CMod.exists_lowdeg hM y
    rw [kM_mk hp, kM_mk hq] at h
    rw [F2nP.digits.key_inj h]

/-- lines 25-30: the monic gcd is 1 exactly for units -/
theorem gcd_test {r mm : CPoly F2Mod} {f : (AdjoinRoot m)[X]} (hr : PRep (F2Mod.Rep m) r f) (hmm : PRep (F2Mod.Rep m) mm M)
    (hM : M ≠ 0) : ∃ g c g' p1 e, CPoly.gcd F2Mod.cops r mm = ok g ∧ CPoly.get_coeff F2Mod.cops g g.degree = ok c ∧
      CPoly.sdiv F2Mod.cops g c = ok g' ∧ CPoly.psub F2Mod.cops mm 1 = ok p1 ∧ CPoly.eq F2Mod.cops g' p1 = ok e ∧
      PRep (F2Mod.Rep m) p1 1 ∧ (e = true ↔ IsUnit (AdjoinRoot.mk M f)) := by
  have R := F2Mod.cops_ref hm.out.ne_zero
  obtain ⟨g, h1, d, hd, hgcd⟩ := sat_false.mp (CPoly.gcd_sat R hr hmm)
  have hd0 : d ≠ 0 := by
    rintro rfl
    exact hM (zero_dvd_iff.mp hgcd.2.1)
  obtain ⟨c, h2, hc⟩ := sat_false.mp (CPoly.get_coeff_sat R hd g.degree)
  rw [← hd.deg, coeff_natDegree] at hc
  have hl := leadingCoeff_ne_zero.mpr hd0
  obtain ⟨g', h3, hg'⟩ := sat_false.mp (CPoly.sdiv_sat R hd hc (mul_inv_cancel₀ hl))
  obtain ⟨p1, h4, hp1⟩ := sat_false.mp (CPoly.psub_sat R hmm (v := 1) (by decide))
  rw [Int.cast_one, C_1] at hp1
  obtain ⟨e, h5, he⟩ := sat_false.mp (CPoly.eq_sat R hg' hp1)
  refine ⟨g, c, g', p1, e, h1, h2, h3, h4, h5, hp1, ?_⟩
  rw [he, CMod.isUnit_mk, ← isRelPrime_iff_isCoprime]
  constructor
  · intro h k hk1 hk2
    exact isUnit_of_dvd_one (((hgcd.2.2 k hk1 hk2).mul_right _).trans h.dvd)
  · intro h
    have hu := h hgcd.1 hgcd.2.1
    obtain ⟨u, hu0, rfl⟩ := Polynomial.isUnit_iff.mp hu
    rw [leadingCoeff_C, ← C_mul, mul_inv_cancel₀ (by simpa using hl), C_1]

variable (hd30 : m.natDegree ≤ 30)

theorem units_le (hM : M ≠ 0) : Nat.card (AdjoinRoot M)ˣ ≤ Fintype.card (AdjoinRoot m) ^ M.natDegree := by
  haveI := finite_adjoin hM
  rw [← natCard_eq hM]
  exact Nat.card_le_card_of_injective _ Units.val_injective

theorem units_small (hM : M ≠ 0) (hsz : 2 ^ (2 * m.natDegree * M.natDegree) ≤ 2147483647) : Nat.card (AdjoinRoot M)ˣ ≤ 46340 := by
  have h1 := units_le hM
  rw [F2nP.card_eq, ← pow_mul] at h1
  have h2 : (2 ^ (m.natDegree * M.natDegree)) ^ 2 ≤ 2147483647 := by
    rw [← pow_mul, show m.natDegree * M.natDegree * 2 = 2 * m.natDegree * M.natDegree by ring]; exact hsz
  by_contra hc
  have h3 : 46341 ≤ 2 ^ (m.natDegree * M.natDegree) := by omega
  have := Nat.pow_le_pow_left h3 2
  omega

include hd30

theorem order_ok {a : CMod F2Mod} {x : AdjoinRoot M} (ha : R2 m M a x) (hx : IsUnit x) (hpos : 1 ≤ M.natDegree)
    (hsz : 2 ^ (2 * m.natDegree * M.natDegree) ≤ 2147483647) (hmax : (M.natDegree : Int) ≤ INT_MAX) :
    order a = ok (orderOf x : Int) := by
  have hM := ha.m_ne
  haveI := finite_adjoin hM
  obtain ⟨f, hf, -, hfx⟩ := ha.hr
  obtain ⟨g, c, g', p1, e, h1, h2, h3, h4, h5, hp1, he⟩ := gcd_test hf ha.hm hM
  unfold order
  rw [h1, ok_bind, h2, ok_bind, h3, ok_bind, h4, ok_bind, h5, ok_bind]
  rw [hfx] at he
  rw [he.mpr hx]
  simp only [Bool.not_true, Bool.false_eq_true, if_false]
  have hlt := units_small hM hsz
  rw [Props.C78_f2n_totient_partial hd30 ha.hm hpos hmax hsz, ok_bind, ← card_units hM]
  obtain ⟨o1, o2, o3, o4⟩ := orderOf_facts hx
  obtain ⟨L, hL, hs, hmem⟩ := Units.phi_divisors_ok o4 (by omega) (Units.powOk_of_small o4 hlt)
  rw [hL, ok_bind]
  obtain ⟨one, hone, honer⟩ := sat_false.mp (CMod.mk'_sat (F2Mod.cops_ref hm.out.ne_zero) hp1 ha.hm hM)
  rw [map_one] at honer
  rw [hone, ok_bind]
  refine Units.orderLoop_ok (uref hM) ha honer o1 L (fun d hd => ?_) hs ((hmem _).mpr ⟨by omega, by exact_mod_cast o2⟩)
  obtain ⟨d1, d2⟩ := (hmem d).mp hd
  have := Int.le_of_dvd (by omega) d2
  exact ⟨d1, by unfold INT_MAX; omega⟩

omit hd30 in
theorem order_throw {a : CMod F2Mod} {x : AdjoinRoot M} (ha : R2 m M a x) (hx : ¬ IsUnit x) : order a = throw := by
  have hM := ha.m_ne
  obtain ⟨f, hf, -, hfx⟩ := ha.hr
  obtain ⟨g, c, g', p1, e, h1, h2, h3, h4, h5, hp1, he⟩ := gcd_test hf ha.hm hM
  unfold order
  rw [h1, ok_bind, h2, ok_bind, h3, ok_bind, h4, ok_bind, h5, ok_bind]
  rw [hfx] at he
  have : e = false := by
    cases e
    · rfl
    · exact absurd (he.mp rfl) hx
  rw [this]; rfl

omit hd30 in
theorem exists_key (n : ℕ) : ∃ p : (AdjoinRoot m)[X], pk m p = n := by
  induction n with
  | zero => exact ⟨0, by simp [pk, polyKey, digitSum, F2nP.digits.zero]⟩
  | succ n ih =>
    obtain ⟨p, rfl⟩ := ih
    obtain ⟨mm, hmm, hmt⟩ := F2P.exists_canon m
    obtain ⟨a, ha⟩ := CPoly.exists_prep (fun x => (F2Mod.exists_rep mm hmm hmt hm.out.ne_zero x).imp fun _ h => h.1) p
    obtain ⟨r, -, g, -, h⟩ := sat_false.mp (F2nP.increment_sat ha)
    exact ⟨g, h⟩

omit hd30 in
theorem exists_gen (hirr : Irreducible M) : ∃ x : AdjoinRoot M, IsUnit x ∧ orderOf x = Nat.card (AdjoinRoot M)ˣ := by
  haveI := Fact.mk hirr
  haveI := finite_adjoin hirr.ne_zero
  obtain ⟨g, hg⟩ := IsCyclic.exists_generator (α := (AdjoinRoot M)ˣ)
  exact ⟨g, g.isUnit, by rw [orderOf_units]; exact orderOf_eq_card_of_forall_mem_zpowers hg⟩

theorem find_generator_ok {mm : CPoly F2Mod} (hmm : PRep (F2Mod.Rep m) mm M) (hirr : Irreducible M)
    (hsz : 2 ^ (2 * m.natDegree * M.natDegree) ≤ 2147483647) (hmax : (M.natDegree : Int) ≤ INT_MAX) :
    (find_generator mm).Ok fun r => ∃ g x, r = some g ∧ R2 m M g x ∧ IsUnit x ∧ orderOf x = Nat.card (AdjoinRoot M)ˣ ∧
      ∀ y : AdjoinRoot M, IsUnit y → orderOf y = Nat.card (AdjoinRoot M)ˣ → kM M x ≤ kM M y := by
  haveI := Fact.mk hirr
  have hM := hirr.ne_zero
  have hpos := hirr.natDegree_pos
  haveI := finite_adjoin hM
  have D := F2nP.digits (m := m)
  have R := F2Mod.cops_ref hm.out.ne_zero
  have hq : 2 ≤ Fintype.card (AdjoinRoot m) := Fintype.one_lt_card
  unfold find_generator
  obtain ⟨p1, h4, hp1⟩ := sat_false.mp (CPoly.psub_sat R hmm (v := 1) (by decide))
  rw [Int.cast_one, C_1] at hp1
  rw [h4, ok_bind, ← hmm.deg, if_neg (by omega), Props.C78_f2n_totient_partial hd30 hmm hpos hmax hsz, ok_bind, ← card_units hM,
    (F2nP.fref hd30).q hmm, ok_bind, Int.toNat_natCast]
  obtain ⟨w, hw1, hw2⟩ := exists_gen hirr
  obtain ⟨wp, hwp, rfl⟩ := CMod.exists_lowdeg hM w
  have key_lt : ∀ {p : (AdjoinRoot m)[X]}, p.degree < M.degree → pk m p < Fintype.card (AdjoinRoot m) ^ M.natDegree := by
    intro p hp
    by_cases h0 : p = 0
    · subst h0
      have h00 : pk m (0 : (AdjoinRoot m)[X]) = 0 := by simp [pk, polyKey, digitSum, D.zero]
      rw [h00]; positivity
    · exact (D.key_lt p).trans_le (Nat.pow_le_pow_right (by omega) (natDegree_lt_natDegree h0 hp))
  have deg_lt : ∀ {p : (AdjoinRoot m)[X]}, pk m p < Fintype.card (AdjoinRoot m) ^ M.natDegree → p.degree < M.degree := by
    intro p hp
    by_cases h0 : p = 0
    · subst h0; rw [degree_zero, bot_lt_iff_ne_bot, ne_eq, degree_eq_bot]; exact hM
    · rw [degree_eq_natDegree h0, degree_eq_natDegree hM]
      have := (Nat.pow_lt_pow_iff_right (by omega)).mp ((D.le_key h0).trans_lt hp)
      exact_mod_cast this
  have hzero : ∀ {p : (AdjoinRoot m)[X]}, pk m p = 0 → p = 0 := by
    intro p hp
    exact D.key_inj (hp.trans (by simp [polyKey, digitSum, D.zero]))
  have hwn := key_lt hwp
  let elt : ℕ → AdjoinRoot M := fun n => AdjoinRoot.mk M (exists_key (m := m) n).choose
  have helt : ∀ p : (AdjoinRoot m)[X], elt (pk m p) = AdjoinRoot.mk M p := fun p => by
    show AdjoinRoot.mk M _ = _
    rw [D.key_inj (exists_key (m := m) (pk m p)).choose_spec]
  have hel2 : ∀ n, ∃ p, pk m p = n ∧ elt n = AdjoinRoot.mk M p := fun n => by
    obtain ⟨p, rfl⟩ := exists_key (m := m) n
    exact ⟨p, rfl, helt p⟩
  have hunit : ∀ n, 0 < n → n < Fintype.card (AdjoinRoot m) ^ M.natDegree → IsUnit (elt n) := by
    intro n hn hn2
    obtain ⟨p, rfl, hp⟩ := hel2 n
    rw [hp, isUnit_iff_ne_zero]
    intro h0
    rw [AdjoinRoot.mk_eq_zero] at h0
    have := eq_zero_of_dvd_of_degree_lt h0 (deg_lt hn2)
    rw [this] at hn; simp [pk, polyKey, digitSum, D.zero] at hn
  have hpk0 : ∀ {p : (AdjoinRoot m)[X]}, IsUnit (AdjoinRoot.mk M p) → 1 ≤ pk m p := by
    intro p hp
    rcases Nat.eq_zero_or_pos (pk m p) with h0 | h0
    · rw [hzero h0, map_zero] at hp
      exact absurd hp not_isUnit_zero
    · exact h0
  refine sat_false.mp ((Units.genLoop_sat (rep := R2 m M) (srep := fun (s : CPoly F2Mod) n => ∃ p, PRep (F2Mod.Rep m) s p ∧ pk m p = n)
    (Q := Fintype.card (AdjoinRoot m) ^ M.natDegree) (elt := elt) (V := False) ?_ ?_ ?_ ?_ hwn (by rw [helt]; exact hw2) _ p1 1
    ⟨1, hp1, ?_⟩ one_pos (hpk0 hw1) (by omega)).mono ?_)
  · rintro s n ⟨p, hs, rfl⟩
    rw [Ok_ok, decide_eq_true_iff, ← hs.deg]
    constructor
    · intro h
      exact (D.key_lt _).trans_le (Nat.pow_le_pow_right (by omega) h)
    · intro h
      by_cases h0 : p = 0
      · rw [h0, natDegree_zero]; exact hpos
      · exact natDegree_lt_natDegree h0 (deg_lt h)
  · rintro s n ⟨p, hs, rfl⟩ _
    rw [helt]
    exact sat_false.mp (CMod.mk'_sat R hs hmm hM)
  · rintro s n ⟨p, hs, rfl⟩ _
    exact (sat_false.mp (F2nP.increment_sat hs)).mono fun r ⟨g, h1, h2⟩ => ⟨g, h1, h2⟩
  · intro a n h1 h2 ha
    rw [order_ok hd30 ha (hunit n h1 h2) hpos hsz hmax, Sat_ok]
  · have := D.key_X_pow F2nP.kv_one 0
    simpa [pk] using this
  · rintro r ⟨g, rfl, c, c1, c2, hg, ho, hmin⟩
    obtain ⟨p, rfl, hpe⟩ := hel2 c
    have hcQ : pk m p < Fintype.card (AdjoinRoot m) ^ M.natDegree := by omega
    refine ⟨g, _, rfl, hg, hunit _ c1 hcQ, ho, fun y hy hyo => ?_⟩
    obtain ⟨q, hq, rfl⟩ := CMod.exists_lowdeg hM y
    rw [hpe, kM_mk (deg_lt hcQ), kM_mk hq]
    by_contra hlt
    exact hmin (pk m q) (hpk0 hy) (by omega) (by rw [helt]; exact hyo)

omit hd30 in
/-- Whatever f2n_polymod_log returns is a logarithm; it only looks at exponents below a square that is about
2^deg M, not at all of the group. -/
theorem log_sat {qs : List (CMod F2Mod × ℕ) → List (CMod F2Mod × ℕ)} (hqs : IsQsort (CMod.lt F2Mod.cops) qs) {g a : CMod F2Mod}
    {w x : AdjoinRoot M} (hg : R2 m M g w) (ha : R2 m M a x) (hd : M.natDegree ≤ 30) :
    (IsUnit w → ∃ k : ℕ, 2 ^ M.natDegree ≤ k * k ∧ (k - 1) * (k - 1) < 2 ^ M.natDegree ∧
      ((log qs g a = throw ∧ ¬ ∃ r < k * k, w ^ r = x) ∨ ∃ r : ℕ, log qs g a = ok (r : Int) ∧ r < k * k ∧ w ^ r = x)) ∧
    (¬ IsUnit w → log qs g a = throw) := by
  have hM := hg.m_ne
  unfold log
  rw [← hg.hm.deg, F2P.ishl_one (by omega), ok_bind]
  obtain ⟨k, h1, h2, h3, h4, h5⟩ := Units.sqrt_ceil_ok' (n := 2 ^ M.natDegree) Nat.one_le_two_pow (Nat.pow_le_pow_right (by norm_num) hd)
  rw [show ((2 : Int) ^ M.natDegree) = ((2 ^ M.natDegree : ℕ) : Int) by push_cast; rfl, h1, ok_bind, Int.toNat_natCast]
  refine ⟨fun hw => ⟨k, h3, h5, ?_⟩, fun hw => Units.bsgs_nonunit (uref hM) qs a hg hw h2⟩
  rcases Units.bsgs_unit (uref hM) hqs hg ha hw h2 h4 with ⟨e1, e2⟩ | ⟨r, e1, e3, e2⟩
  · left
    refine ⟨e1, ?_⟩
    rintro ⟨r, hr, hrx⟩
    refine e2 (r % k) (Nat.mod_lt _ h2) (r / k) (Nat.div_lt_of_lt_mul hr) ?_
    rw [mul_comm, Nat.mod_add_div, hrx]
  · exact Or.inr ⟨r, e1, e3, e2⟩

end F2nU
end Spffl
