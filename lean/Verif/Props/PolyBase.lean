/-
Property C115: polynomials from the digits of an int.
-/
import Verif.Model.PolyBase
import Verif.Proof.CPoly
import Verif.Proof.IntMod
import Verif.Proof.BaseRep
import Mathlib.Data.Nat.Log

namespace Spffl.Props
open Res Polynomial
namespace PolyBases
open Spffl.PolyBase

/-- The sign with which the digits are taken. -/
def sgn (b : Int) : Int := if b < 0 then -1 else 1

theorem sgn_natAbs (b : Int) : sgn b * b.natAbs = b := by unfold sgn; split <;> omega

theorem sgn_cases (b : Int) : sgn b = 1 ∨ sgn b = -1 := by unfold sgn; split <;> simp

theorem idiv_sgn {σ : Int} (hσ : σ = 1 ∨ σ = -1) {n m : ℕ} (hm : 2 ≤ m) (hn : n ≤ 2147483648) :
    idiv (σ * n) m = ok (σ * (n / m : ℕ)) ∧ imod (σ * n) m = ok (σ * (n % m : ℕ)) := by
  have h1 : n / m ≤ 2147483648 / 2 :=
    (Nat.div_le_div_left hm (by omega)).trans (Nat.div_le_div_right hn)
  have e : (σ * n).tdiv m = σ * (n / m : ℕ) ∧ (σ * n).tmod m = σ * (n % m : ℕ) := by
    rcases hσ with rfl | rfl
    · rw [one_mul, one_mul, one_mul, Int.ofNat_tdiv, Int.ofNat_tmod]
      exact ⟨rfl, rfl⟩
    · rw [neg_one_mul, neg_one_mul, neg_one_mul, Int.neg_tdiv, Int.neg_tmod, Int.ofNat_tdiv, Int.ofNat_tmod]
      exact ⟨rfl, rfl⟩
  have hi : InInt (σ * (n / m : ℕ)) := by
    unfold InInt
    generalize n / m = q at h1
    rcases hσ with rfl | rfl <;> omega
  unfold idiv imod
  rw [e.1, e.2, if_neg (by omega), if_neg (by omega), if_pos hi, chk_ok hi]
  exact ⟨rfl, rfl⟩

theorem degLoop_ok {σ : Int} (hσ : σ = 1 ∨ σ = -1) {m : ℕ} (hm : 2 ≤ m) : ∀ (k j n : ℕ) (d : Int), n < 2 ^ k → n ≤ 2147483648 →
    -1 ≤ d → d + k ≤ 2147483647 →
    degLoop m (k + 1 + j) (σ * n) d = ok (d + if n = 0 then 0 else (Nat.log m n : Int) + 1) := by
  intro k
  induction k with
  | zero =>
    intro j n d hn _ _ _
    obtain rfl : n = 0 := by simpa using hn
    rw [show 0 + 1 + j = j + 1 by omega, degLoop]
    simp
  | succ k ih =>
    intro j n d hn hn' hd hk
    rw [show k + 1 + 1 + j = (k + 1 + j) + 1 by omega, degLoop]
    by_cases h0 : n = 0
    · subst h0; simp
    · have hne : σ * (n : Int) ≠ 0 := by rcases hσ with rfl | rfl <;> simp <;> omega
      have hlt : n / m < 2 ^ k := by
        have : n / m ≤ n / 2 := Nat.div_le_div_left hm (by omega)
        rw [pow_succ] at hn
        omega
      rw [if_neg hne, (idiv_sgn hσ hm hn').1, ok_bind]
      have hi : iadd d 1 = ok (d + 1) := chk_ok (by unfold InInt; push_cast at hk; omega)
      rw [hi, ok_bind, ih j (n / m) (d + 1) hlt ((Nat.div_le_self _ _).trans hn') (by omega) (by push_cast at hk; omega), if_neg h0]
      by_cases hlm : n < m
      · rw [Nat.div_eq_of_lt hlm, if_pos rfl, Nat.log_of_lt hlm]
        simp
      · have : n / m ≠ 0 := (Nat.div_pos (by omega) (by omega)).ne'
        rw [if_neg this, Nat.log_of_one_lt_of_le (by omega) (by omega : m ≤ n)]
        push_cast
        congr 1; omega

theorem fill_ok {σ : Int} (hσ : σ = 1 ∨ σ = -1) {m : ℕ} (hm : 2 ≤ m) (hm' : InInt m) {n : ℕ} (hn : n ≤ 2147483648) (len : ℕ) :
    (fill m len (σ * n)).Ok fun r => r.1.length = len ∧ ∀ i, i < len →
      At r.1 i fun c => IntMod.Rep m c ((σ * (n / m ^ i % m : ℕ) : Int) : ZMod m) := by
  unfold fill
  refine (forUp_ok (fun i s => s.1.length = len ∧ s.2 = σ * (n / m ^ i : ℕ) ∧ ∀ j, j < i →
    At s.1 j fun c => IntMod.Rep m c ((σ * (n / m ^ j % m : ℕ) : Int) : ZMod m)) (Nat.zero_le len) ⟨by simp, by simp, by simp⟩ ?_).mono
    fun r hr => ⟨hr.1, hr.2.2⟩
  rintro i s - hi ⟨h1, h2, h3⟩
  have hle : n / m ^ i ≤ 2147483648 := (Nat.div_le_self _ _).trans hn
  obtain ⟨e1, e2⟩ := idiv_sgn hσ hm hle
  rw [h2, e2, ok_bind]
  have hmod : n / m ^ i % m < m := Nat.mod_lt _ (by omega)
  refine (IntMod.mk'_ok (by omega) hm' (by
    unfold InInt at hm' ⊢
    rcases hσ with rfl | rfl <;> omega)).bind fun c hc => ?_
  rw [wr_ok (by omega), ok_bind, e1, ok_bind, Ok_ok]
  refine ⟨by simpa using h1, by rw [Nat.div_div_eq_div_mul, pow_succ], fun j hj => ?_⟩
  by_cases hji : j = i
  · subst hji
    exact at_set_self (by omega) hc
  · exact (h3 j (by omega)).congr (List.getElem?_set_ne (Ne.symm hji))

/-- C115: for every modulus from 2 on the polynomial has the digits of the number in that base as its coefficients, lowest first,
negated if the number is negative; its degree is that of the highest digit. -/
theorem C115_from_base_rep {b : Int} (hb : InInt b) {m : ℕ} (hm : 2 ≤ m) (hm' : InInt m) :
    (fp_from_base_rep b m).Ok fun p => ∃ f : (ZMod m)[X], CPoly.PRep (IntMod.Rep m) p f ∧
      (∀ i, f.coeff i = ((if b < 0 then -1 else 1) : ZMod m) * ((b.natAbs / m ^ i % m : ℕ) : ZMod m)) ∧
      f.natDegree = Nat.log m b.natAbs := by
  have hn : b.natAbs ≤ 2147483648 := by unfold InInt at hb; omega
  have hσ := sgn_cases b
  set n := b.natAbs with hnd
  have hbe : b = sgn b * n := (sgn_natAbs b).symm
  have hd : deg b m = ok ((Nat.log m n : ℕ) : Int) := by
    unfold deg
    by_cases h0 : b = 0
    · rw [if_pos h0]
      have : n = 0 := by omega
      rw [this]; simp
    · rw [if_neg h0]
      have := degLoop_ok hσ hm 32 (2 ^ 32 - 33) n (-1) (by omega) hn (by omega) (by omega)
      rw [← hbe, if_neg (by omega), show 32 + 1 + (2 ^ 32 - 33) = 2 ^ 32 by norm_num] at this
      rw [this]
      congr 1; omega
  unfold fp_from_base_rep
  rw [hd, ok_bind, Int.toNat_natCast]
  have hfill := fill_ok hσ hm hm' hn (Nat.log m n + 1)
  rw [← hbe] at hfill
  refine hfill.bind fun r ⟨h1, h2⟩ => ?_
  rw [Ok_ok]
  -- the polynomial
  set f : (ZMod m)[X] := ∑ i ∈ Finset.range (Nat.log m n + 1), C ((sgn b * (n / m ^ i % m : ℕ) : Int) : ZMod m) * X ^ i with hf
  have hsc : ((sgn b : Int) : ZMod m) = if b < 0 then -1 else 1 := by unfold sgn; split <;> simp
  have hco : ∀ i, f.coeff i = ((sgn b * (n / m ^ i % m : ℕ) : Int) : ZMod m) := by
    intro i
    rw [hf, finsetSum_coeff]
    simp only [coeff_C_mul_X_pow, Finset.sum_ite_eq, Finset.mem_range]
    split
    · rfl
    · rename_i hi
      have : n / m ^ i = 0 := Nat.div_eq_of_lt (Nat.lt_pow_of_log_lt (by omega) (by omega))
      rw [this]; simp
  have hdeg : f.natDegree = Nat.log m n := by
    refine le_antisymm ?_ ?_
    · rw [natDegree_le_iff_coeff_eq_zero]
      intro i hi
      rw [hco]
      have : n / m ^ i = 0 := Nat.div_eq_of_lt (Nat.lt_pow_of_log_lt (by omega) (by omega))
      rw [this]; simp
    · by_cases h0 : n = 0
      · rw [h0]; simp
      · refine le_natDegree_of_ne_zero ?_
        rw [hco, Int.cast_mul]
        have h3 : m ^ Nat.log m n ≤ n := Nat.pow_log_le_self m h0
        have h4 : n < m ^ (Nat.log m n + 1) := Nat.lt_pow_succ_log_self (by omega) n
        have h5 : 0 < n / m ^ Nat.log m n := Nat.div_pos h3 (by positivity)
        have h6 : n / m ^ Nat.log m n < m := by
          rw [Nat.div_lt_iff_lt_mul (by positivity), ← pow_succ']; exact h4
        rw [Nat.mod_eq_of_lt h6]
        have h7 : ((n / m ^ Nat.log m n : ℕ) : ZMod m) ≠ 0 := by
          rw [Ne, ZMod.natCast_eq_zero_iff]
          exact fun h => absurd (Nat.le_of_dvd h5 h) (by omega)
        rw [Int.cast_natCast]
        rcases hσ with h | h <;> rw [h]
        · rwa [Int.cast_one, one_mul]
        · rwa [Int.cast_neg, Int.cast_one, neg_one_mul, neg_ne_zero]
  refine ⟨f, ⟨by simpa using hdeg, fun i hi => ?_⟩, fun i => ?_, hdeg⟩
  · rw [hco]; exact h2 i hi
  · rw [hco, Int.cast_mul, hsc, Int.cast_natCast]

/-- C115: for numbers from 0 on the number is the value of the polynomial at the modulus, so that no two numbers give the same
polynomial. -/
theorem C115_digits_back {b : Int} (hb : InInt b) (h0 : 0 ≤ b) {m : ℕ} (hm : 2 ≤ m) (hm' : InInt m) :
    (fp_from_base_rep b m).Ok fun p => ∃ f : (ZMod m)[X], CPoly.PRep (IntMod.Rep m) p f ∧
      (∑ i ∈ Finset.range (f.natDegree + 1), ((f.coeff i).val * m ^ i : ℕ) : Int) = b := by
  refine (C115_from_base_rep hb hm hm').mono fun p ⟨f, hp, hc, hd⟩ => ⟨f, hp, ?_⟩
  have e : ∀ i, (f.coeff i).val = b.natAbs / m ^ i % m := by
    intro i
    rw [hc, if_neg (by omega), one_mul, ZMod.val_natCast, Nat.mod_mod]
  simp only [e]
  rw [← Nat.cast_sum, LinAlg.sum_digits, hd, Nat.mod_eq_of_lt (Nat.lt_pow_succ_log_self (by omega) _)]
  omega

theorem C115_injective {b c : Int} (hb : InInt b) (h0 : 0 ≤ b) (hc : InInt c) (h1 : 0 ≤ c) {m : ℕ} (hm : 2 ≤ m) (hm' : InInt m)
    (h : fp_from_base_rep b m = fp_from_base_rep c m) : b = c := by
  obtain ⟨p, hp, f, hf, ef⟩ := C115_digits_back hb h0 hm hm'
  obtain ⟨q, hq, g, hg, eg⟩ := C115_digits_back hc h1 hm hm'
  rw [hp, hq] at h
  cases h
  have : f = g := by
    ext i
    by_cases hi : i < p.degree + 1
    · obtain ⟨x, hx, rx⟩ := hf.co i hi
      obtain ⟨y, hy, ry⟩ := hg.co i hi
      rw [hx] at hy
      cases hy
      exact rx.2.2.2.symm.trans ry.2.2.2
    · rw [coeff_eq_zero_of_natDegree_lt (by rw [hf.deg]; omega), coeff_eq_zero_of_natDegree_lt (by rw [hg.deg]; omega)]
  rw [← ef, ← eg, this]

/-- The negative of a number gives the negative of its polynomial. -/
theorem C115_negative {b : Int} (hb : InInt b) (hb' : InInt (-b)) {m : ℕ} (hm : 2 ≤ m) (hm' : InInt m) :
    ∃ p q, fp_from_base_rep b m = ok p ∧ fp_from_base_rep (-b) m = ok q ∧ ∃ f : (ZMod m)[X],
      CPoly.PRep (IntMod.Rep m) p f ∧ CPoly.PRep (IntMod.Rep m) q (-f) := by
  obtain ⟨p, hp, f, hf, cf, -⟩ := C115_from_base_rep hb hm hm'
  obtain ⟨q, hq, g, hg, cg, -⟩ := C115_from_base_rep hb' hm hm'
  refine ⟨p, q, hp, hq, f, hf, ?_⟩
  have : g = -f := by
    ext i
    rw [cg, coeff_neg, cf, Int.natAbs_neg]
    rcases lt_trichotomy b 0 with h | h | h
    · rw [if_neg (by omega), if_pos h]; simp
    · subst h; simp
    · rw [if_pos (by omega), if_neg (by omega)]; simp
  rw [← this]; exact hg

/-! ### The other moduli -/

theorem degLoop_one {m : Int} (hm : m = 1 ∨ m = -1) : ∀ (k : ℕ) (temp d : Int), temp ≠ 0 → -1 ≤ d → d ≤ 2147483647 →
    2147483647 - d < k → degLoop m k temp d = ub := by
  intro k
  induction k with
  | zero => intro temp d _ _ _ h; push_cast at h; omega
  | succ k ih =>
    intro temp d h0 h1 h2 h3
    rw [degLoop, if_neg h0]
    have hne : temp.tdiv m ≠ 0 := by
      rcases hm with rfl | rfl <;> simpa using h0
    unfold idiv
    rw [if_neg (by omega)]
    by_cases hi : InInt (temp.tdiv m)
    · rw [chk_ok hi, ok_bind]
      by_cases hd : InInt (d + 1)
      · rw [show iadd d 1 = ok (d + 1) from chk_ok hd, ok_bind]
        unfold InInt at hd
        exact ih _ _ hne (by omega) (by omega) (by push_cast at h3; omega)
      · rw [show iadd d 1 = ub from chk_ub hd]; rfl
    · rw [chk_ub hi]; rfl

theorem degLoop_neg {m : Int} (hm : m ≤ -2) : ∀ (k j : ℕ) (temp d : Int), temp.natAbs < 2 ^ k → temp.natAbs ≤ 2147483648 →
    -1 ≤ d → d + k ≤ 2147483647 → ∃ d', degLoop m (k + 1 + j) temp d = ok d' := by
  intro k
  induction k with
  | zero =>
    intro j temp d hn _ _ _
    obtain rfl : temp = 0 := by simpa using hn
    rw [show 0 + 1 + j = j + 1 by omega, degLoop]
    exact ⟨d, by simp⟩
  | succ k ih =>
    intro j temp d hn hn' hd hk
    rw [show k + 1 + 1 + j = (k + 1 + j) + 1 by omega, degLoop]
    by_cases h0 : temp = 0
    · exact ⟨d, by rw [if_pos h0]⟩
    · have hq : (temp.tdiv m).natAbs ≤ temp.natAbs / 2 := by
        rw [Int.natAbs_tdiv]
        exact Nat.div_le_div_left (by omega) (by omega)
      have hi : InInt (temp.tdiv m) := by unfold InInt; omega
      rw [if_neg h0]
      unfold idiv
      rw [if_neg (by omega), chk_ok hi, ok_bind, show iadd d 1 = ok (d + 1) from chk_ok (by unfold InInt; push_cast at hk; omega), ok_bind]
      exact ih j _ _ (by rw [pow_succ] at hn; omega) (by omega) (by omega) (by push_cast at hk; omega)

/-- C115: a negative modulus from -2 on down is refused with an exception. -/
theorem C115_negative_modulus {b m : Int} (hb : InInt b) (hm : m ≤ -2) : fp_from_base_rep b m = throw := by
  have hd : ∃ d, deg b m = ok d := by
    unfold deg
    split
    · exact ⟨0, rfl⟩
    · have := degLoop_neg hm 32 (2 ^ 32 - 33) b (-1) (by unfold InInt at hb; omega) (by unfold InInt at hb; omega) (by omega) (by omega)
      rwa [show 32 + 1 + (2 ^ 32 - 33) = 2 ^ 32 by norm_num] at this
  obtain ⟨d, hd⟩ := hd
  have hq : (b.tdiv m).natAbs ≤ b.natAbs / 2 := by
    rw [Int.natAbs_tdiv]
    exact Nat.div_le_div_left (by omega) (by omega)
  have hi : InInt (b.tdiv m) := by unfold InInt at hb ⊢; omega
  have hr : imod b m = ok (b.tmod m) := by
    unfold imod
    rw [if_neg (by omega), if_pos hi]
  unfold fp_from_base_rep fill forUp
  rw [hd, ok_bind, show d.toNat + 1 - 0 = d.toNat + 1 by omega, loopUp]
  simp only [hr, ok_bind, IntMod.mk']
  rw [if_pos (by omega)]
  rfl

/-- C115: a number other than 0 with the modulus 0, 1 or -1 is undefined behaviour: a division by zero, or a loop that counts up until its
counter overflows. -/
theorem C115_violated_modulus {b m : Int} (hb : b ≠ 0) (hm : m = 0 ∨ m = 1 ∨ m = -1) : fp_from_base_rep b m = ub := by
  have : deg b m = ub := by
    unfold deg
    rw [if_neg hb]
    rcases hm with rfl | hm
    · rw [show (2 : ℕ) ^ 32 = (2 ^ 32 - 1) + 1 by norm_num, degLoop, if_neg hb]
      rfl
    · exact degLoop_one hm _ _ _ hb (by omega) (by omega) (by norm_num)
  unfold fp_from_base_rep
  rw [this]; rfl

/-- C115: the number 0: the zero polynomial for every modulus from 1 on, an exception for negative ones, a division by zero for 0. -/
theorem C115_zero (m : Int) (hm : InInt m) :
    (0 < m → fp_from_base_rep 0 m = ok ⟨0, [⟨0, m⟩]⟩) ∧ (m < 0 → fp_from_base_rep 0 m = throw) ∧
      (m = 0 → fp_from_base_rep 0 m = ub) := by
  have h0 : InInt 0 := by unfold InInt; omega
  unfold fp_from_base_rep deg fill forUp
  rw [if_pos rfl, ok_bind]
  have hi : m ≠ 0 → imod 0 m = ok 0 := by
    intro h
    unfold imod
    rw [if_neg h, if_pos (by simpa using h0)]; simp
  have hq : m ≠ 0 → idiv 0 m = ok 0 := by
    intro h
    unfold idiv
    rw [if_neg h, Int.zero_tdiv, chk_ok h0]
  refine ⟨fun h => ?_, fun h => ?_, fun h => ?_⟩
  · show (loopUp _ 1 0 _ >>= _) = _
    simp only [loopUp, hi (by omega), hq (by omega), ok_bind, IntMod.mk', if_neg (by omega : ¬ m ≤ 0), if_neg (by omega : ¬ (0 : Int) < 0)]
    rfl
  · show (loopUp _ 1 0 _ >>= _) = _
    simp only [loopUp, hi (by omega), ok_bind, IntMod.mk', if_pos (by omega : m ≤ 0)]
    rfl
  · subst h; rfl

/-- 23 = 2·9 + 1·3 + 2 over the integers modulo 3. -/
example : fp_from_base_rep 23 3 = ok ⟨2, [⟨2, 3⟩, ⟨1, 3⟩, ⟨2, 3⟩]⟩ := by decide +kernel
example : fp_from_base_rep (-23) 3 = ok ⟨2, [⟨1, 3⟩, ⟨2, 3⟩, ⟨1, 3⟩]⟩ := by decide +kernel
/-- Modulo 2 a number and its negative give the same polynomial. -/
example : fp_from_base_rep (-5) 2 = fp_from_base_rep 5 2 := by decide +kernel

end PolyBases
end Spffl.Props
