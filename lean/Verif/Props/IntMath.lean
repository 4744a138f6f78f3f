/-
Property theorems for the integer routines (C01 - C06, C10).
Specifications: `Int.gcd`, `Nat.lcm`, integer powers, `Nat.totient`, `Nat.log`.
-/
import Verif.Proof.IntMath

namespace Spffl
open Res

/-! ## C01 gcd -/

/-- C01 (full statement on its domain): for all `int`s other than `INT_MIN`, `int_gcd` terminates
without undefined behaviour and the result is, up to sign, the greatest common divisor; it is
non-negative whenever both arguments are non-zero. -/
theorem C01_int_gcd_partial (a b : Int) (ha : InInt a) (hb : InInt b) (ha' : a ≠ INT_MIN)
    (hb' : b ≠ INT_MIN) :
    ∃ g, int_gcd a b = ok g ∧ g.natAbs = Int.gcd a b ∧ (a ≠ 0 → b ≠ 0 → 0 < g) := by
  by_cases ha0 : a = 0
  · subst ha0; exact ⟨b, int_gcd_zero_left b, by simp, by simp⟩
  by_cases hb0 : b = 0
  · subst hb0; exact ⟨a, int_gcd_zero_right a, by simp, by simp⟩
  refine ⟨_, int_gcd_nonzero ha hb ha0 hb0 ha' hb', by simp, fun _ _ => ?_⟩
  have := Int.gcd_pos_of_ne_zero_left b ha0
  omega

/-- The same in terms of divisibility only: the result divides both arguments and every common
divisor divides it. -/
theorem C01_int_gcd_greatest (a b : Int) (ha : InInt a) (hb : InInt b) (ha' : a ≠ INT_MIN)
    (hb' : b ≠ INT_MIN) :
    ∃ g, int_gcd a b = ok g ∧ g ∣ a ∧ g ∣ b ∧ ∀ d : Int, d ∣ a → d ∣ b → d ∣ g := by
  obtain ⟨g, hg, hg', _⟩ := C01_int_gcd_partial a b ha hb ha' hb'
  refine ⟨g, hg, ?_, ?_, fun d h1 h2 => ?_⟩
  · rw [← Int.natAbs_dvd, hg']; exact Int.gcd_dvd_left ..
  · rw [← Int.natAbs_dvd, hg']; exact Int.gcd_dvd_right ..
  · rw [← Int.dvd_natAbs, hg']; exact Int.dvd_coe_gcd h1 h2

example : InInt (-12) ∧ InInt 18 ∧ (-12 : Int) ≠ INT_MIN ∧ (18 : Int) ≠ INT_MIN ∧
    int_gcd (-12) 18 = ok 6 := by decide

/-- C01 is violated as stated: a zero argument returns its partner with its sign ... -/
theorem C01_violated_sign : ∃ a b, InInt a ∧ InInt b ∧ ∃ g, int_gcd a b = ok g ∧ g < 0 :=
  ⟨0, -4, by decide, by decide, -4, by decide, by decide⟩

/-- ... and exactly the calls with two non-zero arguments one of which is `INT_MIN` are undefined. -/
theorem C01_ub_iff (a b : Int) (ha : InInt a) (hb : InInt b) :
    int_gcd a b = ub ↔ a ≠ 0 ∧ b ≠ 0 ∧ (a = INT_MIN ∨ b = INT_MIN) := by
  constructor
  · intro h
    by_contra hc
    by_cases ha0 : a = 0
    · subst ha0; rw [int_gcd_zero_left] at h; cases h
    by_cases hb0 : b = 0
    · subst hb0; rw [int_gcd_zero_right] at h; cases h
    rw [int_gcd_nonzero ha hb ha0 hb0 (by tauto) (by tauto)] at h; cases h
  · rintro ⟨ha0, hb0, h⟩
    unfold int_gcd
    rw [if_neg ha0, if_neg hb0]
    rcases h with rfl | rfl
    · have : absInt INT_MIN = ub := by decide
      simp [this]
    · have : absInt INT_MIN = ub := by decide
      rw [this]
      unfold absInt
      split
      · rw [ineg, chk]; split <;> simp
      · simp

/-! ## C02 extended gcd -/

/-- C02: for every pair of `int`s other than `INT_MIN` with `b ≠ 0`, `int_ext_gcd` terminates, none of
its intermediate computations overflows, it returns `d = a*m + b*n` with `|d| = gcd(a,b)`, and the
coefficients are bounded by the arguments. -/
theorem C02_int_ext_gcd (a b : Int) (ha : InInt a) (hb : InInt b) (ha' : a ≠ INT_MIN)
    (hb' : b ≠ INT_MIN) (hb0 : b ≠ 0) :
    ∃ d m n, int_ext_gcd a b = ok (d, m, n) ∧ d = a * m + b * n ∧ d.natAbs = Int.gcd a b ∧
      |m| ≤ |b| ∧ |n| ≤ max 1 |a| := by
  unfold INT_MIN at *
  have ha2 : |a| ≤ 2147483647 := abs_le.mpr ⟨by have := ha.1; omega, ha.2⟩
  have hb2 : |b| ≤ 2147483647 := abs_le.mpr ⟨by have := hb.1; omega, hb.2⟩
  have := extLoop_ok a b ha2 hb2 b.natAbs
    { mprime := 1, n := 1, m := 0, nprime := 0, c := a, d := b } le_rfl hb0 (by simp) (by simp) rfl
    (by simp) (by simp) ha2 hb2 (by simp) (by simp)
  obtain ⟨⟨d, m, n⟩, h, h1, h2, h3, h4⟩ := this
  exact ⟨d, m, n, h, h1.symm, h2, h3, h4⟩

example : int_ext_gcd 240 46 = ok (2, -9, 47) := by decide +kernel

/-- C02, domain: a zero second argument divides by zero. -/
theorem C02_zero_divisor (a : Int) : int_ext_gcd a 0 = ub := by
  simp [int_ext_gcd, extLoop, idiv]

/-! ## C03 lcm -/

/-- C03 under the guard the code needs: if the *product* is representable and the arguments are not
both zero, the result is the lcm up to sign. -/
theorem C03_int_lcm_partial (a b : Int) (ha : InInt a) (hb : InInt b) (ha' : a ≠ INT_MIN)
    (hb' : b ≠ INT_MIN) (hab : InInt (a * b)) (h0 : a ≠ 0 ∨ b ≠ 0) :
    ∃ l, int_lcm a b = ok l ∧ l.natAbs = Nat.lcm a.natAbs b.natAbs := by
  obtain ⟨g, hg, hg', hpos⟩ := C01_int_gcd_partial a b ha hb ha' hb'
  have hg0 : g ≠ 0 := by
    intro h; subst h
    have := Int.gcd_eq_zero_iff.mp hg'.symm
    omega
  have hle : |(a * b).tdiv g| ≤ |a * b| := by
    rw [← Int.natCast_natAbs, ← Int.natCast_natAbs, Int.natAbs_tdiv]
    exact_mod_cast Nat.div_le_self _ _
  have hin : InInt ((a * b).tdiv g) := by
    by_cases hm : a * b = INT_MIN
    · have hgp := hpos (by rintro rfl; simp [INT_MIN] at hm) (by rintro rfl; simp [INT_MIN] at hm)
      rw [hm]
      have h1 : INT_MIN.tdiv g = -((2147483648 : Int) / g) := by
        rw [show INT_MIN = -2147483648 from rfl, Int.neg_tdiv, Int.tdiv_eq_ediv_of_nonneg (by norm_num)]
      have h2 : (2147483648 : Int) / g ≤ 2147483648 := Int.ediv_le_self _ (by norm_num)
      have h3 : 0 ≤ (2147483648 : Int) / g := Int.ediv_nonneg (by norm_num) hgp.le
      rw [h1]; constructor <;> omega
    · have hab2 : |a * b| ≤ 2147483647 := by
        unfold INT_MIN at hm
        exact abs_le.mpr ⟨by have := hab.1; omega, hab.2⟩
      have := abs_le.mp (hle.trans hab2)
      constructor <;> omega
  refine ⟨(a * b).tdiv g, ?_, ?_⟩
  · rw [int_lcm, imul, chk_ok hab, ok_bind, hg, ok_bind, idiv, if_neg hg0, chk_ok hin]
  · rw [Int.natAbs_tdiv, hg', Int.natAbs_mul]; rfl

example : int_lcm 12 18 = ok 36 ∧ InInt (12 * 18) := by decide +kernel

/-- C03 is violated: `lcm(65536,65536) = 65536` is representable, but the code overflows. -/
theorem C03_violated : InInt (Nat.lcm 65536 65536) ∧ int_lcm 65536 65536 = ub := by decide +kernel

/-- C03: `int_lcm(0,0)` divides by zero. -/
theorem C03_zero : int_lcm 0 0 = ub := by decide

/-! ## C04 power -/

/-- C04, exact characterisation: for `e ≥ 1` the call is defined exactly when `b^(2^k)` is
representable, `2^k` being the least power of two exceeding `e`; then it returns `b^e`.
(The last squaring, whose value is never used, decides.) -/
theorem C04_int_power_partial (b e : Int) (he : 0 < e) (he' : InInt e) :
    int_power b e =
      if InInt (b ^ (2 ^ (Nat.log 2 e.toNat + 1))) then ok (b ^ e.toNat) else ub := by
  have h1 : toU32 e = e.toNat := by unfold toU32; have := he'.2; omega
  have h2 := powLoop_eq b 32 0 0 e.toNat (by norm_num) (by have := he'.2; omega)
  rw [pow_zero] at h2
  simp only [pow_zero, pow_one] at h2
  rw [int_power, h1, h2, if_neg (by omega)]
  simp

theorem C04_int_power_zero (b : Int) : int_power b 0 = ok 1 := by
  simp [int_power, toU32, powLoop]

example : (0:Int) < 13 ∧ InInt 13 ∧ int_power 3 13 = ok 1594323 ∧ int_power 3 7 = ok 2187 := by decide +kernel

/-- C04 is violated: `2^16` is representable but the call overflows. -/
theorem C04_violated : InInt (2 ^ 16) ∧ int_power 2 16 = ub := by decide +kernel

/-! ## C05 square roots -/

/-- C05: floor square root, for every non-negative `int`. -/
theorem C05_int_sqrt_floor (n : Int) (h0 : 0 ≤ n) (hn : InInt n) :
    ∃ r, int_sqrt_floor n = ok r ∧ 0 ≤ r ∧ r * r ≤ n ∧ n < (r + 1) * (r + 1) := by
  rcases h0.eq_or_lt with rfl | h
  · exact ⟨0, by decide, by decide, by decide, by decide⟩
  · obtain ⟨r, hr, hr0, hP⟩ := int_sqrt_ok h hn false
    refine ⟨r, hr, hr0, ?_⟩
    split at hP
    · rename_i h2; constructor
      · omega
      · rw [← h2]; nlinarith
    · simp only [Bool.false_eq_true, if_false] at hP
      exact ⟨hP.1.le, hP.2⟩

/-- C05: ceiling square root: the least `r ≥ 0` with `n ≤ r²`. -/
theorem C05_int_sqrt_ceil (n : Int) (h0 : 0 ≤ n) (hn : InInt n) :
    ∃ r, int_sqrt_ceil n = ok r ∧ 0 ≤ r ∧ n ≤ r * r ∧ ∀ s, 0 ≤ s → n ≤ s * s → r ≤ s := by
  rcases h0.eq_or_lt with rfl | h
  · exact ⟨0, by decide, by decide, by decide, fun s hs _ => hs⟩
  · obtain ⟨r, hr, hr0, hP⟩ := int_sqrt_ok h hn true
    refine ⟨r, hr, hr0, ?_⟩
    split at hP
    · rename_i h2
      refine ⟨by omega, fun s hs hns => ?_⟩
      by_contra hc
      nlinarith
    · simp only [if_true] at hP
      refine ⟨hP.2.2.le, fun s hs hns => ?_⟩
      by_contra hc
      nlinarith

/-- C05: negative inputs are rejected with an exception. -/
theorem C05_int_sqrt_negative (n : Int) (h : n < 0) :
    int_sqrt_floor n = throw ∧ int_sqrt_ceil n = throw := by
  simp [int_sqrt_floor, int_sqrt_ceil, int_sqrt, h]

example : InInt 2147483647 ∧ int_sqrt_floor 2147483647 = ok 46340 ∧
    int_sqrt_ceil 2147483647 = ok 46341 := by decide +kernel

/-! ## C06 totient -/

/-- C06 for `n ≥ 2`: the loop computes Euler's function. -/
theorem C06_int_totient_partial (n : Int) (h2 : 2 ≤ n) (hn : InInt n) :
    int_totient n = ok (Nat.totient n.toNat : Int) := int_totient_ok h2 hn

example : (2 : Int) ≤ 12 ∧ InInt 12 ∧ int_totient 12 = ok 4 := by decide +kernel

/-- C06 is violated at `n = 1`: the trivial ring has one unit, the code returns 0. -/
theorem C06_violated : int_totient 1 = ok 0 ∧ Nat.totient 1 = 1 := by decide

/-! ## C10 log10 -/

/-- C10: floor of the base-10 logarithm of every positive 32-bit unsigned number. -/
theorem C10_log10_floor (n : Nat) (h0 : 0 < n) (hn : n < 2 ^ 32) :
    10 ^ calc_log10_unsigned_floor n ≤ n ∧ n < 10 ^ (calc_log10_unsigned_floor n + 1) := by
  have : calc_log10_unsigned_floor n = Nat.log 10 n := by
    unfold calc_log10_unsigned_floor
    rw [log10Loop_eq 10 (n / 10) 0 (by norm_num at *; omega)]
    by_cases h1 : n / 10 = 0
    · rw [if_pos h1]
      have : Nat.log 10 n = 0 := Nat.log_eq_zero_iff.mpr (Or.inl (by omega))
      omega
    · rw [if_neg h1]
      have := Nat.log_div_base 10 n
      have h2 : 1 ≤ Nat.log 10 n := Nat.log_pos (by norm_num) (by omega)
      omega
  rw [this]
  exact ⟨Nat.pow_log_le_self 10 h0.ne', Nat.lt_pow_succ_log_self (by norm_num) n⟩

example : calc_log10_unsigned_floor 4294967295 = 9 := by decide +kernel

end Spffl
