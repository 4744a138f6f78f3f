/-
Property C125: the example program for the Chinese remainder theorem (pre-cmake/examples/crt2.cpp).
-/
import Verif.Model.Crt2
import Verif.Props.IntMod
import Verif.Base.Sat

namespace Spffl.Props
open Res IntMod
namespace Crt

theorem crt_solve {m n x q r : Int} (hco : IsCoprime m n) (hq : q * (n % m) % m = x % m) (hr : r * (m % n) % n = x % n)
    (h0 : 0 ≤ x) (h1 : x < m * n) : (n * q + m * r) % (m * n) = x := by
  have d1 : m ∣ n * q + m * r - x := by
    have : (q * n) % m = x % m := by rw [← hq, Int.mul_emod, Int.mul_emod q (n % m), Int.emod_emod]
    have e := Int.emod_emod_of_dvd (q * n - x) (dvd_refl m)
    have h3 : m ∣ q * n - x := Int.dvd_of_emod_eq_zero (Int.emod_eq_emod_iff_emod_sub_eq_zero.1 this)
    have : n * q + m * r - x = (q * n - x) + m * r := by ring
    rw [this]; exact dvd_add h3 (dvd_mul_right _ _)
  have d2 : n ∣ n * q + m * r - x := by
    have : (r * m) % n = x % n := by rw [← hr, Int.mul_emod, Int.mul_emod r (m % n), Int.emod_emod]
    have h3 : n ∣ r * m - x := Int.dvd_of_emod_eq_zero (Int.emod_eq_emod_iff_emod_sub_eq_zero.1 this)
    have : n * q + m * r - x = (r * m - x) + n * q := by ring
    rw [this]; exact dvd_add h3 (dvd_mul_right _ _)
  have d := hco.mul_dvd d1 d2
  have h2 := Int.emod_eq_emod_iff_emod_sub_eq_zero.2 (Int.emod_eq_zero_of_dvd d)
  rw [h2, Int.emod_eq_of_lt h0 h1]

theorem gcd_mod {a b : Int} : Int.gcd (a % b) b = 1 ↔ IsCoprime a b := by
  rw [← Int.isCoprime_iff_gcd_eq_one, Int.emod_def, sub_eq_add_neg, ← mul_neg]
  exact IsCoprime.add_mul_left_left_iff

/-- The line for `x`: undefined only if the product of the moduli is above 2^30, and defined only if `mn + x` fits an int. -/
theorem line_spec {m n : Int} (hm : 2 ≤ m) (hm' : m ≤ 46341) (hn : 2 ≤ n) (hn' : n ≤ 46341) (hco : IsCoprime m n) (hmn : InInt (m * n))
    {c : Cache} (hc : CacheOk c) {x : Int} (h0 : 0 ≤ x) (h1 : x < m * n) :
    (Crt2.line c m n (m * n) x).Sat (1073741824 < m * n) (fun r => m * n + x ≤ INT_MAX ∧ r.1 = ⟨x, x % m, x % n, x, 0⟩ ∧ CacheOk r.2) := by
  have hx : InInt x := by unfold InInt at hmn ⊢; omega
  have hI : ∀ k : Int, 0 ≤ k → k ≤ 46341 → InInt k := fun k _ _ => by unfold InInt; omega
  have am0 := Int.emod_nonneg x (show m ≠ 0 by omega)
  have am1 := Int.emod_lt_of_pos x (show 0 < m by omega)
  have bn0 := Int.emod_nonneg x (show n ≠ 0 by omega)
  have bn1 := Int.emod_lt_of_pos x (show 0 < n by omega)
  have nm0 := Int.emod_nonneg n (show m ≠ 0 by omega)
  have nm1 := Int.emod_lt_of_pos n (show 0 < m by omega)
  have mn0 := Int.emod_nonneg m (show n ≠ 0 by omega)
  have mn1 := Int.emod_lt_of_pos m (show 0 < n by omega)
  unfold Crt2.line
  rw [C12_construct x (m * n) hx hmn, if_neg (by omega), ok_bind, C12_construct x m hx (hI m (by omega) hm'), if_neg (by omega), ok_bind,
    C12_construct x n hx (hI n (by omega) hn'), if_neg (by omega), ok_bind]
  dsimp only
  rw [C12_construct (x % m) m (hI _ am0 (by omega)) (hI m (by omega) hm'), if_neg (by omega), ok_bind,
    C12_construct n m (hI n (by omega) hn') (hI m (by omega) hm'), if_neg (by omega), ok_bind]
  have g1 : Int.gcd (n % m) m = 1 := gcd_mod.2 hco.symm
  have g2 : Int.gcd (m % n) n = 1 := gcd_mod.2 hco
  have D1 := C13_div c hc m (x % m % m) (n % m) hm hm' ⟨Int.emod_nonneg _ (by omega), Int.emod_lt_of_pos _ (by omega)⟩ ⟨nm0, nm1⟩
  rw [if_pos g1] at D1
  obtain ⟨q, c1, e1, hc1, q0, q1, hq⟩ := D1
  rw [e1, ok_bind, C12_construct (x % n) n (hI _ bn0 (by omega)) (hI n (by omega) hn'), if_neg (by omega), ok_bind,
    C12_construct m n (hI m (by omega) hm') (hI n (by omega) hn'), if_neg (by omega), ok_bind]
  dsimp only
  have D2 := C13_div c1 hc1 n (x % n % n) (m % n) hn hn' ⟨Int.emod_nonneg _ (by omega), Int.emod_lt_of_pos _ (by omega)⟩ ⟨mn0, mn1⟩
  rw [if_pos g2] at D2
  obtain ⟨r, c2, e2, hc2, r0, r1, hr⟩ := D2
  rw [e2, ok_bind]
  dsimp only
  have b1 : 0 ≤ n * q := by positivity
  have b2 : n * q ≤ m * n - n := by nlinarith
  have b3 : 0 ≤ m * r := mul_nonneg (by omega) r0
  have b4 : m * r ≤ m * n - m := by nlinarith
  unfold imul iadd
  rw [chk_ok (by unfold InInt at hmn ⊢; omega), ok_bind, chk_ok (by unfold InInt at hmn ⊢; omega), ok_bind]
  by_cases hu : InInt (n * q + m * r)
  · have hs := crt_solve hco (x := x) (by rw [hq, Int.emod_emod]) (by rw [hr, Int.emod_emod]) h0 h1
    rw [chk_ok hu, ok_bind, C12_construct _ _ hu hmn, if_neg (by omega), ok_bind, hs]
    dsimp only
    rw [Int.emod_eq_of_lt h0 h1, C12_sub (m * n) x x hmn ⟨h0, h1⟩ ⟨h0, h1⟩]
    by_cases h : m * n + x ≤ INT_MAX
    · rw [if_pos h, ok_bind, Sat_ok]
      exact ⟨h, by simp, hc2⟩
    · rw [if_neg h]
      show 1073741824 < m * n
      unfold INT_MAX at h; omega
  · rw [chk_ub hu]
    show 1073741824 < m * n
    unfold InInt at hu; omega

theorem loop_spec {m n : Int} (hm : 2 ≤ m) (hm' : m ≤ 46341) (hn : 2 ≤ n) (hn' : n ≤ 46341) (hco : IsCoprime m n) (hmn : InInt (m * n)) :
    ∀ (k : ℕ) (x : Int) (c : Cache), CacheOk c → 0 ≤ x → x + k = m * n →
    (Crt2.loop m n (m * n) k x c).Sat (1073741824 < m * n) (fun ls => (0 < k → 2 * (m * n) - 1 ≤ INT_MAX) ∧
      ls = (List.range k).map fun i => ⟨x + i, (x + i) % m, (x + i) % n, x + i, 0⟩)
  | 0, x, c, hc, h0, hx => ⟨fun h => absurd h (lt_irrefl 0), rfl⟩
  | k + 1, x, c, hc, h0, hx => by
    unfold Crt2.loop
    refine (line_spec hm hm' hn hn' hco hmn hc h0 (by push_cast at hx; omega)).bind fun r ⟨h1, h2, h3⟩ => ?_
    refine (loop_spec hm hm' hn hn' hco hmn k (x + 1) r.2 h3 (by omega) (by push_cast at hx; omega)).bind fun ls ⟨h4, h5⟩ => ?_
    rw [Sat_ok]
    refine ⟨fun _ => ?_, ?_⟩
    · rcases Nat.eq_zero_or_pos k with e | e
      · subst e; push_cast at hx; omega
      · exact h4 e
    · rw [h2, h5, List.range_succ_eq_map, List.map_cons, List.map_map]
      congr 1
      · simp
      · refine List.map_congr_left fun i _ => ?_
        simp only [Function.comp, Nat.cast_succ]
        rw [show x + 1 + (i : Int) = x + ((i : Int) + 1) by ring]

/-- C125: for coprime moduli from 2 to 46341 with a product up to 2^30, the table has a line for each residue in ascending order, with the two
residues, the number that is found again from them, and the difference zero. -/
theorem C125_table_partial {m n : Int} (hm : 2 ≤ m) (hm' : m ≤ 46341) (hn : 2 ≤ n) (hn' : n ≤ 46341) (hco : IsCoprime m n)
    (hmn : m * n ≤ 1073741824) :
    Crt2.main m n = ok ((List.range (m * n).toNat).map fun x : ℕ => ⟨x, x % m, x % n, x, 0⟩) := by
  have hp : 0 < m * n := by positivity
  have hI : InInt (m * n) := by unfold InInt; omega
  unfold Crt2.main imul
  rw [chk_ok hI, ok_bind]
  have := (loop_spec hm hm' hn hn' hco hI (m * n).toNat 0 Cache.init cacheOk_init le_rfl (by omega)).mono (Q := fun ls =>
    ls = (List.range (m * n).toNat).map fun x : ℕ => (⟨x, x % m, x % n, x, 0⟩ : Crt2.Line)) fun ls h => by rw [h.2]; simp
  cases h : Crt2.loop m n (m * n) (m * n).toNat 0 Cache.init with
  | ok a => rw [h] at this; exact congrArg ok this
  | ub => rw [h] at this; exact absurd this (by show ¬ (1073741824 < m * n); omega)
  | throw => rw [h] at this; exact this.elim
  | timeout => rw [h] at this; exact this.elim

/-- C125: the lines say that reduction is injective on the table, so the printed pairs are all pairs of residues, each once. -/
theorem C125_pairs {m n : Int} (hm : 2 ≤ m) (hm' : m ≤ 46341) (hn : 2 ≤ n) (hn' : n ≤ 46341) (hco : IsCoprime m n)
    (hmn : m * n ≤ 1073741824) :
    ∃ ls, Crt2.main m n = ok ls ∧ (∀ a b : Int, 0 ≤ a → a < m → 0 ≤ b → b < n → ∃! l, l ∈ ls ∧ l.xm = a ∧ l.xn = b) := by
  refine ⟨_, C125_table_partial hm hm' hn hn' hco hmn, fun a b a0 a1 b0 b1 => ?_⟩
  obtain ⟨u, v, huv⟩ := hco
  have hp : 0 < m * n := by positivity
  let x := (a * (v * n) + b * (u * m)) % (m * n)
  have x0 : 0 ≤ x := Int.emod_nonneg _ (by omega)
  have x1 : x < m * n := Int.emod_lt_of_pos _ hp
  have xa : x % m = a := by
    show (a * (v * n) + b * (u * m)) % (m * n) % m = a
    rw [Int.emod_emod_of_dvd _ (dvd_mul_right m n), show a * (v * n) + b * (u * m) = a + m * (b * u - a * u) by
      linear_combination a * huv, Int.add_mul_emod_self_left, Int.emod_eq_of_lt a0 a1]
  have xb : x % n = b := by
    show (a * (v * n) + b * (u * m)) % (m * n) % n = b
    rw [Int.emod_emod_of_dvd _ (dvd_mul_left n m), show a * (v * n) + b * (u * m) = b + n * (a * v - b * v) by
      linear_combination b * huv, Int.add_mul_emod_self_left, Int.emod_eq_of_lt b0 b1]
  refine ⟨⟨x, a, b, x, 0⟩, ⟨List.mem_map.2 ⟨x.toNat, List.mem_range.2 (by omega), by
    rw [show ((x.toNat : ℕ) : Int) = x by omega, xa, xb]⟩, rfl, rfl⟩, ?_⟩
  rintro l ⟨hl, la, lb⟩
  obtain ⟨y, hy, rfl⟩ := List.mem_map.1 hl
  have hy' := List.mem_range.1 hy
  dsimp only at la lb
  have d1 : m ∣ (y : Int) - x := Int.dvd_of_emod_eq_zero (Int.emod_eq_emod_iff_emod_sub_eq_zero.1 (by rw [la, xa]))
  have d2 : n ∣ (y : Int) - x := Int.dvd_of_emod_eq_zero (Int.emod_eq_emod_iff_emod_sub_eq_zero.1 (by rw [lb, xb]))
  have d := (show IsCoprime m n from ⟨u, v, huv⟩).mul_dvd d1 d2
  have e : (y : Int) = x := by
    have h2 := Int.emod_eq_emod_iff_emod_sub_eq_zero.2 (Int.emod_eq_zero_of_dvd d)
    rwa [Int.emod_eq_of_lt (by omega) (by omega), Int.emod_eq_of_lt x0 x1] at h2
  rw [la, lb, e]

/-- C125 violated: for a product above 2^30 that fits an int, or above the int range, the table ends in undefined behaviour. -/
theorem C125_violated_overflow {m n : Int} (hm : 2 ≤ m) (hm' : m ≤ 46341) (hn : 2 ≤ n) (hn' : n ≤ 46341) (hco : IsCoprime m n)
    (hmn : 1073741824 < m * n) : Crt2.main m n = ub := by
  unfold Crt2.main imul
  by_cases hI : InInt (m * n)
  · rw [chk_ok hI, ok_bind]
    have := loop_spec hm hm' hn hn' hco hI (m * n).toNat 0 Cache.init cacheOk_init le_rfl (by omega)
    cases h : Crt2.loop m n (m * n) (m * n).toNat 0 Cache.init with
    | ok a =>
      rw [h] at this
      have := this.1 (by omega)
      unfold INT_MAX at this; omega
    | ub => rfl
    | throw => rw [h] at this; exact this.elim
    | timeout => rw [h] at this; exact this.elim
  · rw [chk_ub hI]; rfl

/-- C125: moduli with a common factor are refused before the first line. -/
theorem C125_not_coprime {m n : Int} (hm : 2 ≤ m) (hm' : m ≤ 46341) (hn : 2 ≤ n) (hn' : n ≤ 46341) (hco : ¬ IsCoprime m n)
    (hmn : InInt (m * n)) : Crt2.main m n = throw := by
  have hp : 0 < m * n := by positivity
  have hI : ∀ k : Int, 0 ≤ k → k ≤ 46341 → InInt k := fun k _ _ => by unfold InInt; omega
  unfold Crt2.main imul
  rw [chk_ok hmn, ok_bind, show (m * n).toNat = (m * n).toNat - 1 + 1 by omega]
  unfold Crt2.loop Crt2.line
  have h00 : InInt 0 := by decide
  rw [C12_construct 0 (m * n) h00 hmn, if_neg (by omega), ok_bind, C12_construct 0 m h00 (hI m (by omega) hm'), if_neg (by omega), ok_bind,
    C12_construct 0 n h00 (hI n (by omega) hn'), if_neg (by omega), ok_bind]
  dsimp only
  rw [Int.zero_emod, Int.zero_emod, C12_construct 0 m h00 (hI m (by omega) hm'), if_neg (by omega), ok_bind,
    C12_construct n m (hI n (by omega) hn') (hI m (by omega) hm'), if_neg (by omega), ok_bind, Int.zero_emod]
  have D1 := C13_div Cache.init cacheOk_init m 0 (n % m) hm hm' ⟨le_rfl, by omega⟩ ⟨Int.emod_nonneg _ (by omega), Int.emod_lt_of_pos _ (by omega)⟩
  rw [if_neg (fun h => hco (gcd_mod.1 h).symm)] at D1
  rw [D1]; rfl

/-- C125 violated: with 1 as the first modulus the program refuses, though 1 is coprime to everything. -/
theorem C125_violated_one {n : Int} (hn : 1 ≤ n) (hI : InInt n) : Crt2.main 1 n = throw := by
  unfold Crt2.main imul
  rw [one_mul, chk_ok hI, ok_bind, show n.toNat = n.toNat - 1 + 1 by omega]
  unfold Crt2.loop Crt2.line
  have h00 : InInt 0 := by decide
  have h11 : InInt 1 := by decide
  rw [C12_construct 0 n h00 hI, if_neg (by omega), ok_bind, C12_construct 0 1 h00 h11, if_neg (by omega), ok_bind, ok_bind]
  dsimp only
  rw [C12_construct _ 1 (by decide) h11, if_neg (by omega), ok_bind, C12_construct n 1 hI h11, if_neg (by omega), ok_bind]
  have : IntMod.div Cache.init ⟨0 % 1 % 1, 1⟩ ⟨n % 1, 1⟩ = throw := by
    rw [Int.emod_one, Int.emod_one]
    unfold IntMod.div
    rw [C13_modulus_one _ cacheOk_init]; rfl
  rw [this]; rfl

/-! ### examples -/

example : Crt2.main 2 3 = ok [⟨0, 0, 0, 0, 0⟩, ⟨1, 1, 1, 1, 0⟩, ⟨2, 0, 2, 2, 0⟩, ⟨3, 1, 0, 3, 0⟩, ⟨4, 0, 1, 4, 0⟩, ⟨5, 1, 2, 5, 0⟩] := by
  decide +kernel
example : Crt2.main 4 6 = throw := by decide +kernel
/-- hypotheses of `C125_violated_overflow` -/
example : IsCoprime (46340 : Int) 46341 ∧ (1073741824 : Int) < 46340 * 46341 := ⟨⟨-1, 1, by norm_num⟩, by norm_num⟩

end Crt
end Spffl.Props
