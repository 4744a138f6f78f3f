/-
f2_poly_t: extended gcd, powers, derivative, square root, evaluation, order, increment, coefficient
setting.
-/
import Verif.Proof.F2Poly
import Mathlib.Combinatorics.Colex
import Mathlib.Algebra.Polynomial.Expand
import Mathlib.FieldTheory.Finite.Basic

namespace Spffl
open Res Polynomial

namespace F2P

/-! ### Extended gcd -/

theorem extLoop_ok {a b : (ZMod 2)[X]} : ∀ (n : ℕ) (s : ExtState), Canon s.c → Canon s.d → Canon s.mprime →
    Canon s.rm → Canon s.nprime → Canon s.rn → toPoly s.d ≠ 0 → (toPoly s.d).natDegree < n →
    toPoly s.c = a * toPoly s.mprime + b * toPoly s.nprime → toPoly s.d = a * toPoly s.rm + b * toPoly s.rn →
    (extLoop n s).Ok (fun r => IsGcd (toPoly r.1) (toPoly s.c) (toPoly s.d) ∧
      toPoly r.1 = a * toPoly r.2.1 + b * toPoly r.2.2 ∧ Canon r.1 ∧ Canon r.2.1 ∧ Canon r.2.2)
  | 0, _, _, _, _, _, _, _, _, h, _, _ => by omega
  | n + 1, s, hc, hd, hm', hm, hn', hn, hdz, hlt, e1, e2 => by
    unfold extLoop
    refine (quot_and_rem_ok hc.good hd.ne_nil hdz).bind fun qr ⟨h1, h2, h3, h4⟩ => ?_
    rw [eqZero_ok h4.ne_nil, ok_bind]
    split
    · rename_i hz
      simp only [decide_eq_true_eq] at hz
      rw [Ok_ok]
      exact ⟨isGcd_base (by rw [← h2, hz]), e2, hd, hm, hn⟩
    · rename_i hz
      simp only [decide_eq_true_eq] at hz
      refine (mul_ok h3).bind fun qm ⟨q1, q2⟩ => ?_
      refine (sub_ok hm'.ne_nil).bind fun rm ⟨r1, r2⟩ => ?_
      refine (mul_ok h3).bind fun qn ⟨q3, q4⟩ => ?_
      refine (sub_ok hn'.ne_nil).bind fun rn ⟨r3, r4⟩ => ?_
      have hdlt : (toPoly qr.2).degree < (toPoly s.d).degree := by
        rw [h2]; exact EuclideanDomain.mod_lt _ hdz
      have hlt2 : (toPoly qr.2).natDegree < (toPoly s.d).natDegree := by
        by_cases h0 : (toPoly s.d).natDegree = 0
        · exfalso
          apply hz
          rw [degree_eq_natDegree hdz, h0] at hdlt
          exact degree_eq_bot.mp (Nat.WithBot.lt_zero_iff.mp (by simpa using hdlt))
        · exact natDegree_lt_natDegree hz hdlt
      have ediv := EuclideanDomain.div_add_mod (toPoly s.c) (toPoly s.d)
      refine (extLoop_ok (a := a) (b := b) n ⟨s.d, qr.2, s.rm, rm, s.rn, rn⟩ hd h4 hm r2 hn r4 hz (by
        dsimp only; omega) e2 ?_).mono fun r ⟨hr1, hr2⟩ => ⟨?_, hr2⟩
      · dsimp only
        rw [r1, r3, q1, q3, h2, h1]
        linear_combination ediv + e1 - (toPoly s.c / toPoly s.d) * e2
      · dsimp only at hr1
        rw [h2] at hr1
        exact isGcd_step hr1

theorem ext_gcd_ok {a b : F2P} (ha : Canon a) (hb : Canon b) :
    (ext_gcd a b).Ok (fun r => IsGcd (toPoly r.1) (toPoly a) (toPoly b) ∧
      toPoly r.1 = toPoly a * toPoly r.2.1 + toPoly b * toPoly r.2.2 ∧ Canon r.1 ∧ Canon r.2.1 ∧ Canon r.2.2) := by
  unfold ext_gcd
  rw [eqZero_ok ha.ne_nil, ok_bind]
  split
  · rename_i hz
    simp only [decide_eq_true_eq] at hz
    rw [Ok_ok, hz]
    exact ⟨⟨dvd_zero _, dvd_rfl, fun c _ h => h⟩, by simp, hb, canon_zero, canon_one⟩
  · rw [eqZero_ok hb.ne_nil, ok_bind]
    split
    · rename_i hz
      simp only [decide_eq_true_eq] at hz
      rw [Ok_ok, hz]
      exact ⟨⟨dvd_rfl, dvd_zero _, fun c h _ => h⟩, by simp, ha, canon_one, canon_zero⟩
    · rename_i hz
      simp only [decide_eq_true_eq] at hz
      have := natDegree_lt hb.ne_nil
      exact extLoop_ok _ ⟨a, b, one, zero, zero, one⟩ ha hb canon_one canon_zero canon_zero canon_one hz
        (by dsimp only; omega) (by simp) (by simp)

/-! ### Numeric value and order -/

/-- The integer whose binary digits are the coefficients (the polynomial evaluated at 2 over the integers). -/
noncomputable def nval (p : (ZMod 2)[X]) : ℕ := ∑ i ∈ p.support, 2 ^ i

theorem testBit_nval (p : (ZMod 2)[X]) (t : ℕ) : (nval p).testBit t = decide (p.coeff t ≠ 0) := by
  rw [Bool.eq_iff_iff, ← Nat.mem_bitIndices, decide_eq_true_iff, ← mem_support_iff]
  unfold nval
  rw [← List.mem_toFinset, Finset.toFinset_bitIndices_sum_two_pow]

theorem testBit_nval_toPoly (ps : F2P) (t : ℕ) : (nval (toPoly ps)).testBit t = bitAt ps t := by
  rw [testBit_nval, Bool.eq_iff_iff, decide_eq_true_iff, coeff_ne_zero]

theorem nval_inj {p q : (ZMod 2)[X]} (h : nval p = nval q) : p = q := by
  ext t
  have h1 : (nval p).testBit t = (nval q).testBit t := by rw [h]
  rw [testBit_nval, testBit_nval, decide_eq_decide] at h1
  rcases one_or_zero (p.coeff t) with h2 | h2 <;> rcases one_or_zero (q.coeff t) with h3 | h3 <;>
    simp_all

/-- concrete value of a word list -/
def val : F2P → ℕ
  | [] => 0
  | w :: ps => w.toNat + 2 ^ 64 * val ps

theorem testBit_val : ∀ (ps : F2P) (t : ℕ), (val ps).testBit t = bitAt ps t
  | [], t => by unfold val bitAt; simp [g]
  | w :: ps, t => by
    unfold val
    rw [Nat.add_comm, Nat.testBit_two_pow_mul_add _ w.isLt, testBit_val ps]
    unfold bitAt
    by_cases h : t < 64
    · rw [if_pos h, show t / 64 = 0 by omega, show t % 64 = t by omega]; simp [g, BitVec.getLsbD]
    · rw [if_neg h]
      obtain ⟨k, rfl⟩ : ∃ k, t = k + 64 := ⟨t - 64, by omega⟩
      rw [show (k + 64) / 64 = k / 64 + 1 by omega, show (k + 64) % 64 = k % 64 by omega]
      simp [g]

theorem nval_toPoly (ps : F2P) : nval (toPoly ps) = val ps := by
  apply Nat.eq_of_testBit_eq
  intro t; rw [testBit_nval_toPoly, testBit_val]

theorem val_set : ∀ (ps : F2P) (i : ℕ) (v : BitVec 64), i < ps.length →
    val (ps.set i v) + 2 ^ (64 * i) * (g ps i).toNat = val ps + 2 ^ (64 * i) * v.toNat
  | [], i, v, h => by simp at h
  | w :: ps, 0, v, _ => by simp [val, g]; omega
  | w :: ps, i + 1, v, h => by
    have := val_set ps i v (by simpa using h)
    have e : (2 : ℕ) ^ (64 * (i + 1)) = 2 ^ 64 * 2 ^ (64 * i) := by rw [← pow_add]; congr 1; omega
    simp only [List.set_cons_succ, val]
    rw [show g (w :: ps) (i + 1) = g ps i by simp [g], e]
    generalize (2 : ℕ) ^ (64 * i) = P at *
    generalize (g ps i).toNat = x at *
    generalize v.toNat = y at *
    rw [mul_assoc, mul_assoc]
    omega

theorem word_of_val (ps : F2P) (i : ℕ) : val ps / 2 ^ (64 * i) % 2 ^ 64 = (g ps i).toNat := by
  apply Nat.eq_of_testBit_eq
  intro t
  rw [Nat.testBit_mod_two_pow, Nat.testBit_div_two_pow, testBit_val]
  by_cases h : t < 64
  · rw [show t + 64 * i = 64 * i + t by omega, bitAt_word _ _ _ h]; simp [h, BitVec.getLsbD]
  · have : (g ps i).toNat.testBit t = false :=
      Nat.testBit_lt_two_pow ((g ps i).isLt.trans_le (Nat.pow_le_pow_right (by norm_num) (by omega)))
    simp [h, this]

/-- three-way comparison result -/
def dir (m n : ℕ) : Int := if m < n then -1 else if n < m then 1 else 0

theorem lt_of_word {a b : F2P} {i : ℕ} (h : ∀ t, 64 * (i + 1) ≤ t → bitAt a t = bitAt b t)
    (hw : (g a i).toNat < (g b i).toNat) : val a < val b := by
  have e : val a / 2 ^ (64 * (i + 1)) = val b / 2 ^ (64 * (i + 1)) := by
    apply Nat.eq_of_testBit_eq
    intro t
    rw [Nat.testBit_div_two_pow, Nat.testBit_div_two_pow, testBit_val, testBit_val, h _ (by omega)]
  rw [← word_of_val, ← word_of_val] at hw
  have e2 : (2 : ℕ) ^ (64 * (i + 1)) = 2 ^ (64 * i) * 2 ^ 64 := by rw [← pow_add]; congr 1
  rw [e2, ← Nat.div_div_eq_div_mul, ← Nat.div_div_eq_div_mul] at e
  have : val a / 2 ^ (64 * i) < val b / 2 ^ (64 * i) := by omega
  exact Nat.lt_of_div_lt_div this

theorem cmpLoop_ok (a b : F2P) : ∀ i, i ≤ a.length → i ≤ b.length →
    (∀ t, 64 * i ≤ t → bitAt a t = bitAt b t) → cmpLoop a b i = ok (dir (val a) (val b))
  | 0, _, _, h => by
    have : val a = val b := Nat.eq_of_testBit_eq fun t => by rw [testBit_val, testBit_val, h t (by omega)]
    simp [cmpLoop, dir, this]
  | i + 1, ha, hb, h => by
    unfold cmpLoop
    rw [rd_g (by omega), ok_bind, rd_g (by omega), ok_bind]
    split
    · rename_i hlt
      have := lt_of_word h (by simpa [BitVec.lt_def] using hlt)
      simp [dir, this]
    · rename_i hnl
      split
      · rename_i hlt
        have := lt_of_word (fun t ht => (h t ht).symm) (by simpa [BitVec.lt_def] using hlt)
        simp [dir, this, Nat.lt_asymm this]
      · rename_i hnl2
        refine cmpLoop_ok a b i (by omega) (by omega) fun t ht => ?_
        by_cases h2 : 64 * (i + 1) ≤ t
        · exact h t h2
        · have e : g a i = g b i := by
            apply BitVec.eq_of_toNat_eq
            simp only [BitVec.lt_def, not_lt] at hnl hnl2
            omega
          unfold bitAt; rw [show t / 64 = i by omega, e]

theorem nval_lt_pow (p : (ZMod 2)[X]) : nval p < 2 ^ (p.natDegree + 1) := by
  apply Nat.lt_pow_two_of_testBit
  intro i hi
  rw [testBit_nval, coeff_eq_zero_of_natDegree_lt (by omega)]; simp

theorem pow_le_nval {p : (ZMod 2)[X]} (h : p ≠ 0) : 2 ^ p.natDegree ≤ nval p := by
  apply Nat.ge_two_pow_of_testBit
  rw [testBit_nval, decide_eq_true_iff]
  exact leadingCoeff_ne_zero.mpr h

theorem nval_lt_of_degree {p q : (ZMod 2)[X]} (h : p.natDegree < q.natDegree) : nval p < nval q := by
  have hq : q ≠ 0 := by rintro rfl; simp at h
  exact (nval_lt_pow p).trans_le ((Nat.pow_le_pow_right (by norm_num) h).trans (pow_le_nval hq))

theorem cmp_ok {a b : F2P} (ha : a ≠ []) (hb : b ≠ []) :
    cmp a b = ok (dir (nval (toPoly a)) (nval (toPoly b))) := by
  unfold cmp
  rw [find_degree_ok, ok_bind, find_degree_ok, ok_bind]
  split
  · rename_i h
    have := nval_lt_of_degree h
    simp [dir, this]
  · rename_i h
    split
    · rename_i h2
      have := nval_lt_of_degree h2
      simp [dir, this, Nat.lt_asymm this]
    · rename_i h2
      have ha' := natDegree_lt ha
      have hb' := natDegree_lt hb
      rw [nval_toPoly, nval_toPoly]
      refine cmpLoop_ok a b _ (by omega) (by omega) fun t ht => ?_
      have e1 : bitAt a t = false := by
        by_contra hc
        have := le_natDegree_of_ne_zero (coeff_ne_zero.mpr (by simpa using hc)); omega
      have e2 : bitAt b t = false := by
        by_contra hc
        have := le_natDegree_of_ne_zero (coeff_ne_zero.mpr (by simpa using hc)); omega
      rw [e1, e2]

theorem eq_ok {a b : F2P} (ha : a ≠ []) (hb : b ≠ []) : eq a b = ok (decide (toPoly a = toPoly b)) := by
  unfold eq
  rw [cmp_ok ha hb, ok_bind]
  congr 1
  rw [Bool.eq_iff_iff, decide_eq_true_iff, beq_iff_eq]
  constructor
  · intro h
    apply nval_inj
    unfold dir at h
    split_ifs at h <;> omega
  · intro h; simp [dir, h]

theorem lt_ok {a b : F2P} (ha : a ≠ []) (hb : b ≠ []) :
    lt a b = ok (decide (nval (toPoly a) < nval (toPoly b))) := by
  unfold lt
  rw [cmp_ok ha hb, ok_bind]
  congr 1
  rw [decide_eq_decide]
  unfold dir; split_ifs <;> simp <;> omega

/-! ### Powers -/

theorem exp_zero {a : F2P} (ha : Canon a) (hz : toPoly a = 0) (e : Int) :
    if 0 < e then (exp a e).Ok (fun r => toPoly r = 0 ∧ Canon r) else exp a e = throw := by
  have h : exp a e = if e = 0 then throw else if e < 0 then throw else ok zero := by
    unfold exp
    rw [eq_ok ha.ne_nil canon_zero.ne_nil, ok_bind, if_pos (by simpa using hz)]
  rw [h]
  split
  · rw [if_neg (by omega), if_neg (by omega), Ok_ok]; exact ⟨toPoly_zero, canon_zero⟩
  · by_cases h : e = 0
    · rw [if_pos h]
    · rw [if_neg h, if_pos (by omega)]

theorem exp_const {a : F2P} (ha : Canon a) (h1 : toPoly a = 1) (e : Int) :
    (exp a e).Ok (fun r => toPoly r = 1 ∧ Canon r) := by
  unfold exp
  rw [eq_ok ha.ne_nil canon_zero.ne_nil, ok_bind, if_neg (by simp [h1]), find_degree_ok, ok_bind,
    if_pos (by simp [h1]), Ok_ok]
  exact ⟨toPoly_one, canon_one⟩

theorem exp_neg {a : F2P} (ha : Canon a) (hd : 0 < (toPoly a).natDegree) {e : Int} (he : e < 0) :
    exp a e = throw := by
  have hz : toPoly a ≠ 0 := by intro h; rw [h] at hd; simp at hd
  unfold exp
  rw [eq_ok ha.ne_nil canon_zero.ne_nil, ok_bind, if_neg (by simpa using hz), find_degree_ok, ok_bind,
    if_neg (by omega), if_pos he]

theorem natDegree_zero_cases {p : (ZMod 2)[X]} (h : p.natDegree = 0) : p = 0 ∨ p = 1 := by
  rw [eq_C_of_natDegree_eq_zero h]
  rcases one_or_zero (p.coeff 0) with h | h <;> simp [h]

theorem exp_ok {a : F2P} (ha : Canon a) (hz : toPoly a ≠ 0) (e : ℕ) :
    (exp a e).Ok (fun r => toPoly r = toPoly a ^ e ∧ Canon r) := by
  by_cases hd : (toPoly a).natDegree = 0
  · have h1 := (natDegree_zero_cases hd).resolve_left hz
    rw [h1, one_pow]; exact exp_const ha h1 e
  · unfold exp
    rw [eq_ok ha.ne_nil canon_zero.ne_nil, ok_bind, if_neg (by simpa using hz), find_degree_ok, ok_bind,
      if_neg hd, if_neg (by omega)]
    have := FacInfo.sqMulLoop_ok (mul := mul) (rep := fun (r : F2P) (x : (ZMod 2)[X]) => toPoly r = x ∧ Canon r)
      (D := fun x => x ≠ 0) (fun {p q x y} hp hq hD => by
        obtain ⟨rfl, hpc⟩ := hp
        obtain ⟨rfl, hqc⟩ := hq
        exact mul_canon hpc hD)
      (fun {x y} hy hxy => by rintro rfl; exact hy (zero_dvd_iff.mp hxy))
      ((e : Int).toNat + 1) one a (toPoly a) 1 (e : Int).toNat
      (by rw [Int.toNat_natCast]; exact (Nat.lt_two_pow_self).trans (Nat.pow_lt_pow_right (by norm_num) (by omega)))
      ⟨toPoly_one, canon_one⟩ ⟨rfl, ha⟩ (by simp [hz]) (pow_ne_zero _ hz)
    simpa using this

/-! ### Derivative and square root -/

theorem mask55 (b : ℕ) (hb : b < 64) : (0x5555555555555555#64).getLsbD b = decide (b % 2 = 0) := by
  have : ∀ b : Fin 64, (0x5555555555555555#64).getLsbD b.1 = decide (b.1 % 2 = 0) := by decide
  exact this ⟨b, hb⟩

theorem cast_parity (t : ℕ) : ((t : ZMod 2) + 1) = if t % 2 = 0 then 1 else 0 := by
  have h : (((t + 1 : ℕ)) : ZMod 2) = ((t + 1) % 2 : ℕ) := (ZMod.natCast_mod (t + 1) 2).symm
  push_cast at h
  rw [h]
  split
  · rw [show (t + 1) % 2 = 1 by omega]; rfl
  · rw [show (t + 1) % 2 = 0 by omega]; rfl

theorem deriv_ok {a : F2P} (ha : a ≠ []) :
    (deriv a).Ok (fun r => toPoly r = derivative (toPoly a) ∧ Canon r) := by
  unfold deriv
  refine (demote_1_ok ha).bind fun s ⟨h1, h2⟩ => ?_
  have h3 := forUp_store (lo := 0) (hi := s.length) (ps := s)
    (body := fun i ps => do
      let x ← rd ps i
      wr ps i (x &&& 0x5555555555555555#64))
    (f := fun i => g s i &&& 0x5555555555555555#64) (by omega) le_rfl
    fun i q h1 h2 h3 h4 => by
      rw [rd_g (by omega), ok_bind, wr_ok (by omega), h4, if_neg (by omega)]
  refine h3.bind fun q ⟨hl, hg⟩ => ?_
  refine (trim_ok (ne_nil_of_length (by have := h2.pos; omega))).mono fun r ⟨hr1, hr2⟩ => ⟨?_, hr2⟩
  rw [hr1]
  ext t
  rw [coeff_derivative, coeff_toPoly]
  have hb : bitAt q t = (bitAt s t && decide (t % 2 = 0)) := by
    unfold bitAt
    rw [hg]
    have hgs : ∀ j, (if 0 ≤ j ∧ j < s.length then g s j &&& 0x5555555555555555#64 else g s j) =
        g s j &&& 0x5555555555555555#64 := by
      intro j; split
      · rfl
      · rw [g_of_le (ps := s) (by omega)]; simp
    rw [hgs, BitVec.getLsbD_and, mask55 _ (by omega)]
    congr 1
    rw [decide_eq_decide]; omega
  have hs : bitAt s t = true ↔ (toPoly a).coeff (t + 1) ≠ 0 := by
    rw [← coeff_ne_zero, h1, coeff_divX]
  rw [hb, cast_parity]
  rcases one_or_zero ((toPoly a).coeff (t + 1)) with h | h
  · have : bitAt s t = false := by
      by_contra hc; exact (hs.mp (by simpa using hc)) h
    rw [h, this]; simp
  · have : bitAt s t = true := hs.mpr (by rw [h]; decide)
    rw [h, this]; simp

theorem square_coeff (p : (ZMod 2)[X]) (t : ℕ) :
    (p ^ 2).coeff t = if t % 2 = 0 then p.coeff (t / 2) else 0 := by
  rw [← ZMod.expand_card, coeff_expand (by norm_num)]
  by_cases h : 2 ∣ t
  · rw [if_pos h, if_pos (by omega)]
  · rw [if_neg h, if_neg (by omega)]

theorem sqrtLoop_ok (a : F2P) : ∀ (n di : ℕ) (root : F2P), Canon root →
    (∀ t, t < di → bitAt root t = bitAt a (2 * t)) → (∀ t, di ≤ t → bitAt root t = false) →
    (∀ t, t < di → bitAt a (2 * t + 1) = false) →
    (sqrtLoop a n di root).Ok (fun o => match o with
      | some r => Canon r ∧ (∀ t, t < di + n → bitAt r t = bitAt a (2 * t)) ∧
          (∀ t, di + n ≤ t → bitAt r t = false) ∧ (∀ t, t < di + n → bitAt a (2 * t + 1) = false)
      | none => ∃ t, bitAt a (2 * t + 1) = true)
  | 0, di, root, hc, h1, h2, h3 => by
    unfold sqrtLoop
    rw [Ok_ok]
    exact ⟨hc, by simpa using h1, by simpa using h2, by simpa using h3⟩
  | n + 1, di, root, hc, h1, h2, h3 => by
    have next : ∀ root' : F2P, Canon root' → (∀ t, t < di + 1 → bitAt root' t = bitAt a (2 * t)) →
        (∀ t, di + 1 ≤ t → bitAt root' t = false) →
        ((if bitAt a (2 * di + 1) = true then ok none else sqrtLoop a n (di + 1) root' : Res (Option F2P)).Ok
        (fun o => match o with
      | some r => Canon r ∧ (∀ t, t < di + (n + 1) → bitAt r t = bitAt a (2 * t)) ∧
          (∀ t, di + (n + 1) ≤ t → bitAt r t = false) ∧ (∀ t, t < di + (n + 1) → bitAt a (2 * t + 1) = false)
      | none => ∃ t, bitAt a (2 * t + 1) = true)) := by
      intro root' hc' h1' h2'
      split
      · rename_i hb; rw [Ok_ok]; exact ⟨di, hb⟩
      · rename_i hb
        have := sqrtLoop_ok a n (di + 1) root' hc' h1' h2' (fun t ht => by
          by_cases e : t = di
          · subst e; simpa using hb
          · exact h3 t (by omega))
        rw [show di + (n + 1) = di + 1 + n by omega]
        exact this
    unfold sqrtLoop
    rw [bit_at_ok, ok_bind, bit_at_ok, ok_bind]
    split
    · rename_i hb0
      refine (set_bit_bits hc.ne_nil di).bind fun root' ⟨hr1, hr2⟩ => ?_
      refine next root' (hr2 (Or.inl hc)) (fun t ht => ?_) (fun t ht => ?_)
      · rw [hr1]
        by_cases e : t = di
        · subst e; simp [hb0]
        · rw [h1 t (by omega)]; simp [e]
      · rw [hr1, h2 t (by omega)]; simp; omega
    · rename_i hb0
      refine next root hc (fun t ht => ?_) (fun t ht => h2 t (by omega))
      by_cases e : t = di
      · subst e; rw [h2 t le_rfl]; simp at hb0; rw [hb0]
      · exact h1 t (by omega)

theorem square_root_ok (a : F2P) : (square_root a).Ok (fun o => match o with
      | some r => Canon r ∧ toPoly r ^ 2 = toPoly a
      | none => ¬ ∃ r : (ZMod 2)[X], r ^ 2 = toPoly a) := by
  unfold square_root
  rw [find_degree_ok, ok_bind]
  refine (sqrtLoop_ok a _ 0 zero canon_zero (by intro t ht; omega)
    (fun t _ => toPoly_eq_zero.mp toPoly_zero t) (by intro t ht; omega)).mono fun o h => ?_
  cases o with
  | none =>
    obtain ⟨t, ht⟩ := h
    rintro ⟨r, hr⟩
    have := coeff_ne_zero.mpr ht
    rw [← hr, square_coeff, if_neg (by omega)] at this
    exact this rfl
  | some r =>
    obtain ⟨h1, h2, h3, h4⟩ := h
    refine ⟨h1, ?_⟩
    ext t
    have hbig : ∀ t, (toPoly a).natDegree < t → bitAt a t = false := by
      intro t ht; by_contra hc
      have := le_natDegree_of_ne_zero (coeff_ne_zero.mpr (by simpa using hc)); omega
    rw [square_coeff, coeff_toPoly, coeff_toPoly]
    by_cases he : t % 2 = 0
    · rw [if_pos he]
      by_cases hlt : t / 2 < 0 + ((toPoly a).natDegree / 2 + 1)
      · rw [h2 _ hlt, show 2 * (t / 2) = t by omega]
      · rw [h3 _ (by omega), hbig t (by omega)]
    · rw [if_neg he]
      by_cases hlt : t / 2 < 0 + ((toPoly a).natDegree / 2 + 1)
      · have := h4 _ hlt
        rw [show 2 * (t / 2) + 1 = t by omega] at this
        rw [this]; rfl
      · rw [hbig t (by omega)]; rfl

theorem derivative_zero_iff (p : (ZMod 2)[X]) : derivative p = 0 ↔ ∃ r, r ^ 2 = p := by
  constructor
  · intro h
    refine ⟨contract 2 p, ?_⟩
    rw [← ZMod.expand_card]
    exact expand_contract 2 h (by norm_num)
  · rintro ⟨r, rfl⟩
    rw [derivative_pow]
    have : (C ((2 : ℕ) : ZMod 2)) = 0 := by
      have : ((2 : ℕ) : ZMod 2) = 0 := by decide
      rw [this, C_0]
    rw [this]; simp

/-! ### Increment -/

theorem incLoop_ok (ps : F2P) (hc : Canon ps) : ∀ (n i : ℕ) (s : F2P), i + n = ps.length → s.length = ps.length →
    val s + 2 ^ (64 * i) = val ps + 1 → (∀ j, i ≤ j → g s j = g ps j) →
    (incLoop n i s).Ok (fun r => r.1.length = ps.length ∧
      if r.2 then val r.1 = val ps + 1 ∧ Canon r.1 else val r.1 + 2 ^ (64 * ps.length) = val ps + 1)
  | 0, i, s, hi, hl, hv, hg => by
    unfold incLoop
    rw [Ok_ok]
    simp only [Bool.false_eq_true, if_false]
    have : i = ps.length := by omega
    subst this
    exact ⟨hl, hv⟩
  | n + 1, i, s, hi, hl, hv, hg => by
    have h2 : ∀ v, _ := fun v => val_set s i v (by omega)
    unfold incLoop
    rw [rd_g (by omega), ok_bind]
    split
    · rename_i hw
      rw [wr_ok (by omega), ok_bind, Ok_ok]
      refine ⟨by simpa using hl, ?_⟩
      simp only [if_true]
      have hlt : (g s i).toNat + 1 < 2 ^ 64 := by
        have h1 := (g s i).isLt
        by_contra hcon
        apply hw
        apply BitVec.eq_of_toNat_eq
        rw [BitVec.toNat_allOnes]; omega
      have e : (g s i + 1).toNat = (g s i).toNat + 1 := by
        rw [BitVec.toNat_add]
        exact Nat.mod_eq_of_lt hlt
      constructor
      · have := h2 (g s i + 1)
        rw [e, Nat.mul_add, Nat.mul_one] at this
        omega
      · apply canon_of_last (ne_nil_of_length (by simp; omega))
        simp only [List.length_set]
        rw [g_set (by omega)]
        split
        · intro hz
          have := congrArg BitVec.toNat hz
          rw [e] at this
          simp at this
        · rename_i hne
          rw [hl, hg _ (by omega)]
          apply hc.last
          intro hz
          have := hc.of_zero hz
          rw [this] at hl hi
          simp at hl hi
          omega
    · rename_i hw
      rw [wr_ok (by omega), ok_bind]
      refine incLoop_ok ps hc n (i + 1) _ (by omega) (by simpa using hl) ?_ ?_
      · have := h2 0
        simp only [not_not] at hw
        rw [hw, BitVec.toNat_allOnes] at this
        rw [show 64 * (i + 1) = 64 + 64 * i by omega, pow_add]
        simp only [BitVec.ofNat_eq_ofNat, BitVec.toNat_ofNat, Nat.zero_mod, Nat.mul_zero, Nat.add_zero] at this
        have e3 : (2 : ℕ) ^ (64 * i) * (2 ^ 64 - 1) = 2 ^ 64 * 2 ^ (64 * i) - 2 ^ (64 * i) := by
          rw [Nat.mul_sub, Nat.mul_one, Nat.mul_comm]
        rw [e3] at this
        have : (2 : ℕ) ^ (64 * i) ≤ 2 ^ 64 * 2 ^ (64 * i) := Nat.le_mul_of_pos_left _ (by positivity)
        simp only [BitVec.ofNat_eq_ofNat] at *
        omega
      · intro j hj
        rw [g_set (by omega), if_neg (by omega)]
        exact hg j (by omega)

theorem nval_add_pow {p : (ZMod 2)[X]} {n : ℕ} (h : p.coeff n = 0) : nval (p + X ^ n) = nval p + 2 ^ n := by
  unfold nval
  have : (p + X ^ n).support = insert n p.support := by
    ext t
    rw [Finset.mem_insert, mem_support_iff, mem_support_iff, coeff_add, coeff_X_pow]
    by_cases e : t = n
    · subst e; simp [h]
    · simp [e]
  rw [this, Finset.sum_insert (by simp [h]), Nat.add_comm]

theorem increment_ok {a : F2P} (ha : Canon a) :
    (increment a).Ok (fun r => nval (toPoly r) = nval (toPoly a) + 1 ∧ Canon r) := by
  unfold increment
  refine (incLoop_ok a ha a.length 0 a (by omega) rfl (by simp) (fun _ _ => rfl)).bind fun s ⟨h1, h2⟩ => ?_
  split
  · rename_i hb
    rw [if_pos hb] at h2
    rw [Ok_ok, nval_toPoly, nval_toPoly]; exact h2
  · rename_i hb
    rw [if_neg hb] at h2
    have hpos := ha.pos
    have hb0 : bitAt s.1 (s.1.length * 64) = false := bitAt_of_le (by omega)
    refine ((set_bit_new (ne_nil_of_length (by omega)) hb0).and
      (set_bit_bits (ne_nil_of_length (by omega)) (s.1.length * 64))).mono fun r ⟨⟨hr1, _⟩, _, hr2⟩ => ?_
    refine ⟨?_, hr2 (Or.inr (by omega))⟩
    rw [hr1, nval_add_pow (by rw [coeff_toPoly, hb0]; rfl), nval_toPoly, nval_toPoly, h1, ← h2,
      Nat.mul_comm]

/-! ### Evaluation -/

theorem sum_eight {S T : ℕ → ℕ} (h0 : S 0 = 0) (h : ∀ n, S (n + 1) = S n + T n) :
    T 0 + (T 1 + (T 2 + (T 3 + (T 4 + (T 5 + (T 6 + (T 7 + 0))))))) = S 8 := by
  have h1 := h 0
  have h2 := h 1
  have h3 := h 2
  have h4 := h 3
  have h5 := h 4
  have h6 := h 5
  have h7 := h 6
  have h8 := h 7
  simp only [Nat.zero_add, Nat.reduceAdd] at *
  omega

theorem iadd_nat {x y N : ℕ} (h : x + y ≤ N) (hN : N ≤ 2147483647) :
    iadd (x : Int) (y : Int) = ok ((x + y : ℕ) : Int) := by
  unfold iadd
  rw [chk_ok (by unfold InInt; omega)]
  push_cast; rfl

theorem word_bits (w : BitVec 64) : ((bytes w).map byteBits).sum =
    ∑ i ∈ Finset.range 64, if w.getLsbD i then 1 else 0 := by
  have hb : ∀ n : ℕ, byteBits n = ∑ i ∈ Finset.range 8, if n.testBit i then 1 else 0 := by
    intro n
    unfold byteBits
    rw [← List.countP_eq_length_filter, show List.range 8 = [0, 1, 2, 3, 4, 5, 6, 7] by rfl]
    simp only [List.countP_cons, List.countP_nil, Finset.sum_range_succ, Finset.sum_range_zero]
    ring
  have ht : ∀ k i, k < 8 → i < 8 → (w.toNat / 2 ^ (8 * k) % 256).testBit i = w.getLsbD (8 * k + i) := by
    intro k i hk hi
    rw [show (256 : ℕ) = 2 ^ 8 by norm_num, Nat.testBit_mod_two_pow, Nat.testBit_div_two_pow]
    simp [hi, BitVec.getLsbD, Nat.add_comm]
  have h2 : ∀ k, k < 8 → byteBits (w.toNat / 2 ^ (8 * k) % 256) =
      ∑ i ∈ Finset.range 8, if w.getLsbD (8 * k + i) then 1 else 0 := by
    intro k hk
    rw [hb]
    exact Finset.sum_congr rfl fun i hi => by rw [ht k i hk (by simpa using hi)]
  unfold bytes
  rw [show List.range 8 = [0, 1, 2, 3, 4, 5, 6, 7] by rfl]
  simp only [List.map_cons, List.map_nil, List.sum_cons, List.sum_nil]
  rw [h2 0 (by omega), h2 1 (by omega), h2 2 (by omega), h2 3 (by omega), h2 4 (by omega), h2 5 (by omega),
    h2 6 (by omega), h2 7 (by omega)]
  exact sum_eight (S := fun n => ∑ i ∈ Finset.range (8 * n), if w.getLsbD i then 1 else 0)
    (T := fun k => ∑ i ∈ Finset.range 8, if w.getLsbD (8 * k + i) then 1 else 0) (by simp)
    (fun n => by rw [Nat.mul_succ, Finset.sum_range_add])

theorem eval_one (ps : F2P) : (toPoly ps).eval 1 =
    ((∑ t ∈ Finset.range (64 * ps.length), if bitAt ps t then 1 else 0 : ℕ) : ZMod 2) := by
  unfold toPoly
  rw [eval_finset_sum]
  push_cast
  refine Finset.sum_congr rfl fun t _ => ?_
  split_ifs <;> simp

theorem popcount_le (f : ℕ → Bool) (n : ℕ) : (∑ t ∈ Finset.range n, if f t then 1 else 0) ≤ n := by
  have : ∀ t ∈ Finset.range n, (if f t then 1 else 0) ≤ 1 := by intro t _; split <;> omega
  simpa using Finset.sum_le_sum this

theorem popcount_succ (ps : F2P) (i : ℕ) : (∑ t ∈ Finset.range (64 * (i + 1)), if bitAt ps t then 1 else 0 : ℕ) =
    (∑ t ∈ Finset.range (64 * i), if bitAt ps t then 1 else 0) +
      ∑ b ∈ Finset.range 64, if (g ps i).getLsbD b then 1 else 0 := by
  rw [Nat.mul_succ, Finset.sum_range_add (fun t => if bitAt ps t then 1 else 0) (64 * i) 64]
  have : ∀ b ∈ Finset.range 64, (if bitAt ps (64 * i + b) then 1 else 0 : ℕ) =
      if (g ps i).getLsbD b then 1 else 0 := fun b hb => by
    rw [bitAt_word _ _ _ (by simpa using hb)]
  rw [Finset.sum_congr rfl this]

theorem zcount_ok {ps : F2P} (hsz : 64 * ps.length ≤ 2147483647) :
    (zcount_one_bits ps).Ok (fun v => (v = 0 ∨ v = 1) ∧ ((v : Int) : ZMod 2) = (toPoly ps).eval 1) := by
  unfold zcount_one_bits
  have h1 : (forUp 0 ps.length (0 : Int) fun i n => do
      let w ← rd ps i
      let c ← count_one_bits (bytes w) 8
      iadd n c).Ok (fun n => n = ((∑ t ∈ Finset.range (64 * ps.length), if bitAt ps t then 1 else 0 : ℕ) : Int)) := by
    refine forUp_ok (fun k (n : Int) => n = ((∑ t ∈ Finset.range (64 * k), if bitAt ps t then 1 else 0 : ℕ) : Int))
      (Nat.zero_le _) (by simp) ?_
    intro i n _ hi hn
    rw [rd_g hi, ok_bind, count_one_bits_ok (bytes (g ps i)) 8 (by
        intro b hb; unfold bytes at hb; simp only [List.mem_map] at hb
        obtain ⟨k, _, rfl⟩ := hb; omega) (by simp [bytes]) (by norm_num), ok_bind]
    have e8 : (bytes (g ps i)).take 8 = bytes (g ps i) := by
      apply List.take_of_length_le; simp [bytes]
    rw [e8, word_bits, hn]
    have hsum := popcount_succ ps i
    have hle := popcount_le (bitAt ps) (64 * (i + 1))
    rw [hsum] at hle
    rw [iadd_nat hle (by omega), Ok_ok, hsum]
  refine h1.bind fun n hn => ?_
  rw [Ok_ok]
  refine ⟨by omega, ?_⟩
  rw [eval_one, hn]
  have := ZMod.intCast_mod ((∑ t ∈ Finset.range (64 * ps.length), if bitAt ps t then 1 else 0 : ℕ) : Int) 2
  rw [Int.cast_natCast] at this
  exact_mod_cast this

theorem eval_ok {ps : F2P} (h : ps ≠ []) (hsz : 64 * ps.length ≤ 2147483647) (c : Int) :
    (eval ps c).Ok (fun v => (v = 0 ∨ v = 1) ∧ ((v : Int) : ZMod 2) = (toPoly ps).eval (c : ZMod 2)) := by
  unfold eval
  split
  · rename_i hc
    have : (c : ZMod 2) = 1 := by
      have := ZMod.intCast_mod c 2
      rw [← this]; push_cast; rw [hc]; rfl
    rw [this]; exact zcount_ok hsz
  · rename_i hc
    have : (c : ZMod 2) = 0 := by
      have := ZMod.intCast_mod c 2
      rw [← this]; push_cast; rw [show c % 2 = 0 by omega]; rfl
    rw [this, rd_g (List.length_pos_of_ne_nil h), ok_bind, Ok_ok, ← coeff_zero_eq_eval_zero, coeff_toPoly]
    have e : (g ps 0 &&& 1#64).toNat = if bitAt ps 0 then 1 else 0 := by
      rw [BitVec.toNat_and]
      have : (1#64).toNat = 1 := rfl
      rw [this, Nat.and_one_is_mod]
      unfold bitAt BitVec.getLsbD
      simp only [Nat.zero_div, Nat.zero_mod, Nat.testBit_zero]
      by_cases h : (g ps 0).toNat % 2 = 1
      · simp [h]
      · simp [show (g ps 0).toNat % 2 = 0 by omega]
    rw [e]
    split <;> simp

theorem dvd_antisymm_F2 {p q : (ZMod 2)[X]} (h1 : p ∣ q) (h2 : q ∣ p) : p = q := by
  have h := associated_of_dvd_dvd h1 h2
  obtain ⟨u, hu⟩ := h
  obtain ⟨c, hc, hcu⟩ := Polynomial.isUnit_iff.mp u.isUnit
  have : c = 1 := by
    rcases one_or_zero c with rfl | rfl
    · exact absurd hc (by simp)
    · rfl
  rw [← hu, ← hcu, this]; simp

end F2P
end Spffl
