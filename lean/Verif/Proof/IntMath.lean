import Verif.Model.IntMath
import Mathlib.Data.Int.GCD
import Mathlib.Data.Int.Basic
import Mathlib.Data.Nat.Totient
import Mathlib.Data.Nat.Log
import Mathlib.Tactic.Ring
import Mathlib.Tactic.Linarith
import Mathlib.Tactic.NormNum
import Mathlib.Tactic.Positivity

namespace Spffl
open Res

/-! ### gcd -/

theorem imod_nonneg_ok {a b : Int} (ha : 0 ≤ a) (ha' : a ≤ 2147483647) (hb : 0 < b) :
    imod a b = ok (a % b) := by
  have h1 : a.tdiv b = a / b := Int.tdiv_eq_ediv_of_nonneg ha
  have h2 : a.tmod b = a % b := Int.tmod_eq_emod_of_nonneg ha
  have h3 : 0 ≤ a / b := Int.ediv_nonneg ha hb.le
  have h4 : a / b ≤ a := Int.ediv_le_self _ ha
  unfold imod
  rw [if_neg (by omega), h1, h2, if_pos]
  constructor <;> omega

theorem gcdLoop_eq (k : Nat) : ∀ (a b : Int), 0 ≤ a → a ≤ 2147483647 → 0 < b → b ≤ 2147483647 →
    b.natAbs ≤ k → gcdLoop (k + 1) a b = ok ((Int.gcd a b : Nat) : Int) := by
  induction k with
  | zero => intro a b _ _ hb _ hk; omega
  | succ k ih =>
    intro a b ha ha' hb hb' hk
    rw [gcdLoop, imod_nonneg_ok ha ha' hb]
    simp only [ok_bind]
    have hr0 : 0 ≤ a % b := Int.emod_nonneg _ (by omega)
    have hr1 : a % b < b := Int.emod_lt_of_pos _ hb
    split
    · rename_i h
      have : b ∣ a := Int.dvd_of_emod_eq_zero h
      congr 1
      rw [Int.gcd_eq_right_iff_dvd (by omega) |>.mpr this]
    · rename_i h
      rw [ih b (a % b) hb.le hb' (by omega) (by omega) (by omega)]
      rw [Int.gcd_comm, Int.gcd_emod]

theorem int_gcd_nonzero {a b : Int} (ha : InInt a) (hb : InInt b) (ha0 : a ≠ 0) (hb0 : b ≠ 0)
    (ha' : a ≠ INT_MIN) (hb' : b ≠ INT_MIN) : int_gcd a b = ok (Int.gcd a b : Int) := by
  unfold INT_MIN at *
  obtain ⟨ha1, ha2⟩ := ha
  obtain ⟨hb1, hb2⟩ := hb
  have e1 : absInt a = ok (a.natAbs : Int) := by
    unfold absInt
    split
    · rw [ineg, chk_ok (by constructor <;> omega)]; congr 1; omega
    · congr 1; omega
  have e2 : absInt b = ok (b.natAbs : Int) := by
    unfold absInt
    split
    · rw [ineg, chk_ok (by constructor <;> omega)]; congr 1; omega
    · congr 1; omega
  unfold int_gcd
  rw [if_neg ha0, if_neg hb0, e1]
  simp only [ok_bind]
  rw [e2]
  simp only [ok_bind]
  rw [gcdLoop_eq _ _ _ (by omega) (by omega) (by omega) (by omega) le_rfl]
  simp [Int.gcd, Int.natAbs_abs]

theorem int_gcd_zero_left (b : Int) : int_gcd 0 b = ok b := by simp [int_gcd]
theorem int_gcd_zero_right (a : Int) : int_gcd a 0 = ok a := by
  unfold int_gcd; split <;> simp_all

/-! ### extended gcd -/

theorem ext_step_bound {C D Q R M MP B X : Int} (hD : 0 ≤ D) (hC : C = Q * D + R)
    (h : C * M + D * MP ≤ B) (hX : X ≤ MP + Q * M) : D * X + R * M ≤ B := by
  have h1 : D * X ≤ D * (MP + Q * M) := mul_le_mul_of_nonneg_left hX hD
  have h2 : D * (MP + Q * M) + R * M = C * M + D * MP := by rw [hC]; ring
  linarith

theorem ext_prod_bound {C D Q R M MP B : Int} (hD : 1 ≤ D) (hQ : 0 ≤ Q) (hR : 0 ≤ R) (hM : 0 ≤ M)
    (hMP : 0 ≤ MP) (hC : C = Q * D + R) (h : C * M + D * MP ≤ B) : Q * M ≤ B := by
  have h0 : Q ≤ C := by
    have : Q * 1 ≤ Q * D := mul_le_mul_of_nonneg_left hD hQ
    linarith
  have h1 : Q * M ≤ C * M := mul_le_mul_of_nonneg_right h0 hM
  have h2 : 0 ≤ D * MP := mul_nonneg (by linarith) hMP
  linarith

theorem ext_fin_bound {D R X M B : Int} (hD : 1 ≤ D) (hR : 0 ≤ R) (hM : 0 ≤ M) (hX : 0 ≤ X)
    (h : D * X + R * M ≤ B) : X ≤ B := by
  have h1 : 1 * X ≤ D * X := mul_le_mul_of_nonneg_right hD hX
  have h2 : 0 ≤ R * M := mul_nonneg hR hM
  linarith

theorem extLoop_ok (a b : Int) (ha : |a| ≤ 2147483647) (hb : |b| ≤ 2147483647) :
    ∀ (k : Nat) (s : ExtSt), s.d.natAbs ≤ k → s.d ≠ 0 →
      s.c = a * s.mprime + b * s.nprime → s.d = a * s.m + b * s.n →
      Int.gcd s.c s.d = Int.gcd a b →
      |s.c| * |s.m| + |s.d| * |s.mprime| ≤ |b| →
      |s.c| * |s.n| + |s.d| * |s.nprime| ≤ |a| →
      |s.c| ≤ 2147483647 → |s.d| ≤ 2147483647 →
      |s.m| ≤ |b| → |s.n| ≤ max 1 |a| →
      (extLoop (k + 1) s).Ok (fun (d, m, n) => a * m + b * n = d ∧ d.natAbs = Int.gcd a b ∧
        |m| ≤ |b| ∧ |n| ≤ max 1 |a|) := by
  intro k
  induction k with
  | zero => intro s h1 h2; omega
  | succ k ih =>
    intro s hk hd hc hde hg hm hn hcb hdb hmb hnb
    have hdpos : 0 < |s.d| := abs_pos.mpr hd
    -- |c| = |q| |d| + |r|
    set q := s.c.tdiv s.d with hq
    set r := s.c.tmod s.d with hr
    have hqr : s.d * q + r = s.c := by rw [hq, hr]; exact Int.mul_tdiv_add_tmod _ _
    have hrabs : |r| < |s.d| := by
      have h1 := Int.natAbs_tmod s.c s.d
      have h2 : s.c.natAbs % s.d.natAbs < s.d.natAbs := Nat.mod_lt _ (by omega)
      rw [← Int.natCast_natAbs, ← Int.natCast_natAbs s.d]
      rw [hr]; omega
    have hcabs : |s.c| = |q| * |s.d| + |r| := by
      have h1 : r.natAbs = s.c.natAbs % s.d.natAbs := by rw [hr]; exact Int.natAbs_tmod _ _
      have h2 : q.natAbs = s.c.natAbs / s.d.natAbs := by rw [hq]; exact Int.natAbs_tdiv _ _
      have h3 := Nat.div_add_mod s.c.natAbs s.d.natAbs
      rw [← Int.natCast_natAbs, ← Int.natCast_natAbs q, ← Int.natCast_natAbs s.d,
        ← Int.natCast_natAbs r, h1, h2]
      have : ((s.c.natAbs : ℕ) : ℤ) = ((s.d.natAbs * (s.c.natAbs / s.d.natAbs) +
        s.c.natAbs % s.d.natAbs : ℕ) : ℤ) := by rw [h3]
      rw [this]; push_cast; ring
    have hqb : |q| ≤ 2147483647 := by
      have : |q| * 1 ≤ |q| * |s.d| := mul_le_mul_of_nonneg_left hdpos (abs_nonneg q)
      have := abs_nonneg r
      linarith
    have hqin : InInt q := by constructor <;> (have := abs_le.mp hqb; omega)
    rw [extLoop, idiv, if_neg hd, chk_ok hqin]
    simp only [ok_bind]
    rw [imod, if_neg hd, if_pos hqin]
    simp only [ok_bind, ← hr]
    split
    · rename_i h0
      rw [Ok_ok]
      refine ⟨hde.symm, ?_, hmb, hnb⟩
      rw [← hg]
      have : s.d ∣ s.c := ⟨q, by rw [← hqr, h0]; ring⟩
      rw [Int.gcd_comm, Int.gcd_eq_natAbs_left this]
    · rename_i h0
      have hrpos : 0 < |r| := abs_pos.mpr h0
      -- bounds for the m column
      have hm0 := abs_nonneg s.m
      have hmp0 := abs_nonneg s.mprime
      have hn0 := abs_nonneg s.n
      have hnp0 := abs_nonneg s.nprime
      have hq0 := abs_nonneg q
      have hr0 := abs_nonneg r
      have hqm : |q * s.m| ≤ 2147483647 := by
        rw [abs_mul]
        exact (ext_prod_bound hdpos hq0 hr0 hm0 hmp0 hcabs hm).trans hb
      have hqn : |q * s.n| ≤ 2147483647 := by
        rw [abs_mul]
        exact (ext_prod_bound hdpos hq0 hr0 hn0 hnp0 hcabs hn).trans ha
      have hm' : |s.d| * |s.mprime - q * s.m| + |r| * |s.m| ≤ |b| := by
        refine ext_step_bound hdpos.le hcabs hm ?_
        rw [← abs_mul]; exact abs_sub _ _
      have hn' : |s.d| * |s.nprime - q * s.n| + |r| * |s.n| ≤ |a| := by
        refine ext_step_bound hdpos.le hcabs hn ?_
        rw [← abs_mul]; exact abs_sub _ _
      have hm2 : |s.mprime - q * s.m| ≤ |b| := ext_fin_bound hdpos hr0 hm0 (abs_nonneg _) hm'
      have hn2 : |s.nprime - q * s.n| ≤ |a| := ext_fin_bound hdpos hr0 hn0 (abs_nonneg _) hn'
      have i1 : InInt (q * s.m) := by constructor <;> (have := abs_le.mp hqm; omega)
      have i2 : InInt (q * s.n) := by constructor <;> (have := abs_le.mp hqn; omega)
      have i3 : InInt (s.mprime - q * s.m) := by
        constructor <;> (have := abs_le.mp (hm2.trans hb); omega)
      have i4 : InInt (s.nprime - q * s.n) := by
        constructor <;> (have := abs_le.mp (hn2.trans ha); omega)
      simp only [imul, isub, chk_ok i1, chk_ok i2, chk_ok i3, chk_ok i4, ok_bind]
      refine ih _ ?_ h0 hde ?_ ?_ hm' hn' hdb (hrabs.le.trans hdb) hm2 (hn2.trans (le_max_right _ _))
      · show r.natAbs ≤ k
        have : (r.natAbs : ℤ) < s.d.natAbs := by rw [Int.natCast_natAbs, Int.natCast_natAbs]; exact hrabs
        omega
      · show r = a * (s.mprime - q * s.m) + b * (s.nprime - q * s.n)
        have h5 : r = s.c - s.d * q := by linarith
        rw [h5, hc]
        rw [hde]; ring
      · show Int.gcd s.d r = Int.gcd a b
        rw [← hg, ← hqr, Int.gcd_comm _ s.d]
        simp

/-! ### power -/

theorem InInt_pow_even {b : Int} {k : Nat} (h : InInt (b ^ (2 * k))) :
    ∀ l, l ≤ 2 * k → InInt (b ^ l) := by
  intro l hl
  have h2 : |b| ^ (2 * k) ≤ 2147483647 := by
    have : b ^ (2 * k) = |b| ^ (2 * k) := by rw [pow_mul, pow_mul, sq_abs]
    rw [← this]; exact h.2
  have h3 : |b ^ l| ≤ 2147483647 := by
    rw [abs_pow]
    rcases Nat.eq_zero_or_pos l with rfl | hl0
    · simp
    rcases eq_or_ne b 0 with rfl | hb
    · simp [hl0.ne']
    · have : 1 ≤ |b| := Int.one_le_abs hb
      exact (pow_le_pow_right₀ this hl).trans h2
  have := abs_le.mp h3
  constructor <;> omega

theorem powLoop_eq (b : Int) : ∀ (k l j e : Nat), l < 2 ^ j → e < 2 ^ k →
    powLoop k (b ^ l) (b ^ (2 ^ j)) e =
      if e = 0 then ok (b ^ l)
      else if InInt (b ^ (2 ^ (j + Nat.log 2 e + 1))) then ok (b ^ (l + 2 ^ j * e)) else ub := by
  intro k
  induction k with
  | zero =>
    intro l j e _ he
    have : e = 0 := by simpa using he
    simp [powLoop, this]
  | succ k ih =>
    intro l j e hl he
    rw [powLoop]
    split
    · rfl
    rename_i he0
    have hsq : b ^ 2 ^ j * b ^ 2 ^ j = b ^ 2 ^ (j + 1) := by rw [← pow_add, pow_succ]; congr 1; ring
    have hrv : b ^ l * b ^ 2 ^ j = b ^ (l + 2 ^ j) := by rw [← pow_add]
    have hlog1 : j + 1 ≤ j + Nat.log 2 e + 1 := by omega
    have hbig : 2 ^ (j + Nat.log 2 e + 1) = 2 * 2 ^ (j + Nat.log 2 e) := by rw [pow_succ]; ring
    have hmono : 2 ^ (j + 1) ≤ 2 ^ (j + Nat.log 2 e + 1) := Nat.pow_le_pow_right (by norm_num) hlog1
    have hj1 : (2 : ℕ) ^ (j + 1) = 2 * 2 ^ j := by rw [pow_succ]; ring
    -- the tail of the computation, for any low part l'
    have tail : ∀ l', l' < 2 ^ (j + 1) → l' + 2 ^ (j + 1) * (e / 2) = l + 2 ^ j * e →
        l' ≤ 2 ^ (j + 1) →
        (do let b2 ← imul (b ^ 2 ^ j) (b ^ 2 ^ j); powLoop k (b ^ l') b2 (e / 2)) =
        if InInt (b ^ (2 ^ (j + Nat.log 2 e + 1))) then ok (b ^ (l + 2 ^ j * e)) else ub := by
      intro l' hl' hexp hle
      by_cases hin : InInt (b ^ 2 ^ (j + 1))
      · rw [imul, hsq, chk_ok hin, ok_bind, ih l' (j + 1) (e / 2) hl' (by rw [pow_succ] at he; omega)]
        by_cases he2 : e / 2 = 0
        · have he1 : e = 1 := by omega
          subst he1
          simp only [he2, if_true]
          have : InInt (b ^ 2 ^ (j + Nat.log 2 1 + 1)) := by simpa using hin
          rw [if_pos this]
          have : l' = l + 2 ^ j * 1 := by simpa using hexp
          rw [this]
        · rw [if_neg he2, hexp]
          have : j + 1 + Nat.log 2 (e / 2) + 1 = j + Nat.log 2 e + 1 := by
            have := Nat.log_div_base 2 e
            have h2 : 1 ≤ Nat.log 2 e := Nat.log_pos (by norm_num) (by omega)
            omega
          rw [this]
      · rw [imul, hsq, chk_ub hin, ub_bind, if_neg]
        intro h
        rw [hbig] at h
        exact hin (InInt_pow_even h _ (by rw [← hbig]; exact hmono))
    by_cases hodd : e % 2 = 1
    · rw [powStep, if_pos hodd]
      by_cases hin : InInt (b ^ (l + 2 ^ j))
      · rw [imul, hrv, chk_ok hin, ok_bind]
        apply tail
        · omega
        · rw [hj1]
          have : e = 2 * (e / 2) + 1 := by omega
          conv_rhs => rw [this]
          ring
        · omega
      · rw [imul, hrv, chk_ub hin, ub_bind, if_neg]
        intro h
        rw [hbig] at h
        exact hin (InInt_pow_even h _ (by rw [← hbig]; omega))
    · rw [powStep, if_neg hodd, ok_bind]
      apply tail
      · omega
      · rw [hj1]
        have : e = 2 * (e / 2) := by omega
        conv_rhs => rw [this]
        ring
      · omega

/-! ### square root -/

theorem halfLogLoop_eq : ∀ (k nsv hl : Nat), nsv < 4 ^ k → nsv ≠ 0 →
    ∃ h, halfLogLoop k nsv hl = hl + h + 1 ∧ 4 ^ h ≤ nsv ∧ nsv < 4 ^ (h + 1) ∧ h < k := by
  intro k
  induction k with
  | zero => intro nsv hl h h0; simp at h; omega
  | succ k ih =>
    intro nsv hl h h0
    rw [halfLogLoop, if_neg h0]
    by_cases h4 : nsv / 4 = 0
    · refine ⟨0, ?_, by omega, by omega, by omega⟩
      rw [h4]; cases k <;> simp [halfLogLoop]
    · obtain ⟨g, hg1, hg2, hg3, hg4⟩ := ih (nsv / 4) (hl + 1) (by rw [pow_succ] at h; omega) h4
      refine ⟨g + 1, by rw [hg1]; omega, ?_, ?_, by omega⟩
      · rw [pow_succ]; omega
      · rw [pow_succ]; omega

theorem sqrtLoop_ok (n : Nat) (w : Bool) : ∀ (d k lower : Nat), d + 2 ≤ k →
    lower + 2 ^ d ≤ 65536 → lower * lower ≤ n → n < (lower + 2 ^ d) * (lower + 2 ^ d) →
    (sqrtLoop n w k lower (lower + 2 ^ d) (2 ^ d)).Ok (fun r =>
      if r * r = n then True else if w then (1 ≤ r ∧ (r - 1) * (r - 1) < n ∧ n < r * r)
      else (r * r < n ∧ n < (r + 1) * (r + 1))) := by
  intro d
  induction d with
  | zero =>
    intro k lower hk hb h1 h2
    obtain ⟨k, rfl⟩ : ∃ k', k = k' + 2 := ⟨k - 2, by omega⟩
    simp only [pow_zero] at *
    have hlow : lower < 4294967296 := by omega
    have hsq : lower * lower < 4294967296 := by nlinarith
    have hm : u32 (lower + 1 / 2) = lower := by simp [u32]; omega
    have hs : u32 (lower * lower) = lower * lower := by simp only [u32]; omega
    rw [sqrtLoop, if_neg (by norm_num)]
    simp only [hm, hs]
    by_cases he : lower * lower = n
    · simp [he]
    · rw [if_neg he, if_pos (by omega)]
      rw [sqrtLoop, if_pos (by norm_num)]
      cases w
      · simp only [Bool.false_eq_true, if_false, Ok_ok]
        rw [if_neg he]; exact ⟨by omega, h2⟩
      · simp only [if_true, Ok_ok]
        split
        · trivial
        · refine ⟨by omega, ?_, h2⟩
          simp only [Nat.add_sub_cancel]; omega
  | succ d ih =>
    intro k lower hk hb h1 h2
    obtain ⟨k, rfl⟩ : ∃ k', k = k' + 1 := ⟨k - 1, by omega⟩
    have hp : 2 ^ (d + 1) = 2 * 2 ^ d := by rw [pow_succ]; ring
    have hpos : 0 < 2 ^ d := by positivity
    have hhalf : 2 ^ (d + 1) / 2 = 2 ^ d := by rw [hp]; omega
    rw [sqrtLoop, if_neg (by positivity)]
    have hm : u32 (lower + 2 ^ (d + 1) / 2) = lower + 2 ^ d := by
      rw [hhalf]; simp only [u32]; omega
    have hs : u32 ((lower + 2 ^ d) * (lower + 2 ^ d)) = (lower + 2 ^ d) * (lower + 2 ^ d) := by
      have : (lower + 2 ^ d) * (lower + 2 ^ d) < 4294967296 := by
        have : lower + 2 ^ d ≤ 65535 := by omega
        nlinarith
      simp only [u32]; omega
    simp only [hm, hs]
    by_cases he : (lower + 2 ^ d) * (lower + 2 ^ d) = n
    · simp [he]
    · rw [if_neg he]
      by_cases hlt : (lower + 2 ^ d) * (lower + 2 ^ d) < n
      · rw [if_pos hlt, hhalf]
        have := ih k (lower + 2 ^ d) (by omega) (by omega) hlt.le
          (by rw [show lower + 2 ^ d + 2 ^ d = lower + 2 ^ (d + 1) by omega]; exact h2)
        rwa [show lower + 2 ^ d + 2 ^ d = lower + 2 ^ (d + 1) by omega] at this
      · rw [if_neg hlt, hhalf]
        have hu : u32 (lower + 2 ^ (d + 1) + 4294967296 - 2 ^ d) = lower + 2 ^ d := by
          simp only [u32]; omega
        rw [hu]
        exact ih k lower (by omega) (by omega) h1 (by omega)

theorem int_sqrt_ok {n : Int} (h0 : 0 < n) (hn : InInt n) (w : Bool) :
    (int_sqrt n w).Ok (fun r => 0 ≤ r ∧ (if r * r = n then True else
      if w then (1 ≤ r ∧ (r - 1) * (r - 1) < n ∧ n < r * r)
      else (r * r < n ∧ n < (r + 1) * (r + 1)))) := by
  unfold int_sqrt
  rw [if_neg (by omega), if_neg (by omega)]
  have hN : toU32 n = n.toNat := by unfold toU32; have := hn.2; omega
  simp only [hN]
  set N := n.toNat with hNdef
  have hNn : (N : Int) = n := by omega
  obtain ⟨h, hh1, hh2, hh3, hh4⟩ := halfLogLoop_eq 17 N 0
    (by have := hn.2; have : (4:ℕ) ^ 17 = 17179869184 := by norm_num
        omega) (by omega)
  have hh15 : h ≤ 15 := by
    by_contra hc
    have h16 : 4 ^ 16 ≤ 4 ^ h := Nat.pow_le_pow_right (by norm_num) (by omega)
    have : (4:ℕ) ^ 16 = 4294967296 := by norm_num
    have := hn.2
    omega
  rw [hh1, show 0 + h + 1 - 1 = h by omega]
  have h2h : 2 ^ h ≤ 32768 := by
    calc 2 ^ h ≤ 2 ^ 15 := Nat.pow_le_pow_right (by norm_num) hh15
      _ = 32768 := by norm_num
  have hpos : 0 < 2 ^ h := by positivity
  have e1 : u32 (2 ^ h) = 2 ^ h := by simp only [u32]; omega
  have e2 : u32 (2 ^ h * 2) = 2 ^ h + 2 ^ h := by simp only [u32]; omega
  rw [e1, e2, show 2 ^ h + 2 ^ h - 2 ^ h = 2 ^ h by omega]
  have hfour : 4 ^ h = 2 ^ h * 2 ^ h := by rw [← mul_pow]; norm_num
  have := sqrtLoop_ok N w h 33 (2 ^ h) (by omega) (by omega) (by omega)
    (by rw [pow_succ] at hh3; nlinarith)
  obtain ⟨r, hr, hP⟩ := this
  refine ⟨(r : Int), by rw [hr]; rfl, by omega, ?_⟩
  by_cases heq : r * r = N
  · rw [if_pos (by rw [← hNn, ← heq]; push_cast; rfl)]; trivial
  · rw [if_neg heq] at hP
    rw [if_neg (by rw [← hNn]; exact_mod_cast heq)]
    cases w
    · simp only [Bool.false_eq_true, if_false] at hP ⊢
      rw [← hNn]; exact_mod_cast hP
    · simp only [if_true] at hP ⊢
      rw [← hNn]
      refine ⟨by exact_mod_cast hP.1, ?_, by exact_mod_cast hP.2.2⟩
      have : ((r : Int) - 1) = ((r - 1 : ℕ) : Int) := by have := hP.1; omega
      rw [this]; exact_mod_cast hP.2.1

/-! ### totient -/

theorem int_totient_ok {n : Int} (h2 : 2 ≤ n) (hn : InInt n) :
    int_totient n = ok (Nat.totient n.toNat : Int) := by
  rw [← Ok_eq_iff]
  have hle : n ≤ 2147483647 := hn.2
  have key := forUp_ok (lo := 1) (hi := n.toNat) (s := (0 : Int))
    (body := fun i phi => do
      let g ← int_gcd n i
      if g = 1 then iadd phi 1 else ok phi)
    (fun i phi => phi = (((Finset.Ico 1 i).filter fun k => Nat.Coprime n.toNat k).card : Int))
    (by omega) (by simp) (by
      intro i phi hi1 hi2 hphi
      rw [int_gcd_nonzero hn (by constructor <;> omega) (by omega) (by omega)
        (by unfold INT_MIN; omega) (by unfold INT_MIN; omega)]
      simp only [ok_bind]
      have hico : Finset.Ico 1 (i + 1) = insert i (Finset.Ico 1 i) := by
        ext x; simp only [Finset.mem_insert, Finset.mem_Ico]; omega
      have hg : Int.gcd n i = Nat.gcd n.toNat i := by
        rw [Int.gcd]; simp only [Int.natAbs_natCast]; congr 1; omega
      rw [hico, Finset.filter_insert, hg]
      by_cases hc : Nat.Coprime n.toNat i
      · have hc' : Nat.gcd n.toNat i = 1 := hc
        rw [hc', if_pos (by norm_num), if_pos hc, Finset.card_insert_of_notMem (by simp)]
        have hcard : ((Finset.Ico 1 i).filter fun k => Nat.Coprime n.toNat k).card ≤ i - 1 := by
          refine (Finset.card_filter_le _ _).trans ?_
          simp
        rw [iadd, chk_ok (by constructor <;> omega)]
        simp [hphi]
      · have hc' : ¬ ((Nat.gcd n.toNat i : Int) = 1) := by
          intro h; exact hc (by exact_mod_cast h)
        rw [if_neg hc', if_neg hc]
        simp [hphi])
  refine key.mono fun phi hphi => ?_
  rw [hphi, Nat.totient_eq_card_coprime]
  congr 2
  ext x
  simp only [Finset.mem_filter, Finset.mem_Ico, Finset.mem_range]
  constructor
  · rintro ⟨⟨h1, h3⟩, h4⟩; exact ⟨h3, h4⟩
  · rintro ⟨h3, h4⟩
    refine ⟨⟨?_, h3⟩, h4⟩
    rcases Nat.eq_zero_or_pos x with rfl | h
    · rw [Nat.coprime_zero_right] at h4; omega
    · exact h

/-! ### log10 -/

theorem log10Loop_eq : ∀ (k n rv : Nat), n < 10 ^ k →
    log10Loop k n rv = rv + (if n = 0 then 0 else Nat.log 10 n + 1) := by
  intro k
  induction k with
  | zero => intro n rv h; have : n = 0 := by simpa using h
            simp [log10Loop, this]
  | succ k ih =>
    intro n rv h
    rw [log10Loop]
    by_cases h0 : n = 0
    · simp [h0]
    · rw [if_pos (by omega), ih _ _ (by rw [pow_succ] at h; omega), if_neg h0]
      by_cases h1 : n / 10 = 0
      · rw [if_pos h1]
        have : Nat.log 10 n = 0 := Nat.log_eq_zero_iff.mpr (Or.inl (by omega))
        omega
      · rw [if_neg h1]
        have := Nat.log_div_base 10 n
        have h2 : 1 ≤ Nat.log 10 n := Nat.log_pos (by norm_num) (by omega)
        omega

end Spffl
