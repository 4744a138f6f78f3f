/-
Reading the coefficients of a polynomial as the digits of a natural number.
-/
import Mathlib.Algebra.Polynomial.Degree.Operations
import Mathlib.Algebra.BigOperators.Intervals
import Mathlib.Tactic.Linarith

namespace Spffl
open Polynomial

/-- the number with digits `a 0, a 1, ..., a (n - 1)` in base `q` -/
def digitSum (q : ℕ) (a : ℕ → ℕ) (n : ℕ) : ℕ := ∑ i ∈ Finset.range n, a i * q ^ i

theorem digitSum_succ (q : ℕ) (a : ℕ → ℕ) (n : ℕ) : digitSum q a (n + 1) = digitSum q a n + a n * q ^ n := by
  unfold digitSum; rw [Finset.sum_range_succ]

theorem digitSum_lt {q : ℕ} {a : ℕ → ℕ} (ha : ∀ i, a i < q) : ∀ n, digitSum q a n < q ^ n
  | 0 => by simp [digitSum]
  | n + 1 => by
    rw [digitSum_succ, pow_succ]
    have h1 := digitSum_lt ha n
    have h2 : (a n + 1) * q ^ n ≤ q * q ^ n := Nat.mul_le_mul_right _ (ha n)
    linarith

theorem digitSum_congr {q : ℕ} {a b : ℕ → ℕ} {n : ℕ} (h : ∀ i, i < n → a i = b i) : digitSum q a n = digitSum q b n := by
  unfold digitSum
  exact Finset.sum_congr rfl fun i hi => by rw [h i (Finset.mem_range.mp hi)]

/-- comparing from the top digit -/
theorem digitSum_lex {q : ℕ} {a b : ℕ → ℕ} (ha : ∀ i, a i < q) {i : ℕ} (hi : a i < b i) :
    ∀ n, i < n → (∀ j, i < j → j < n → a j = b j) → digitSum q a n < digitSum q b n
  | 0, h, _ => by omega
  | n + 1, h, he => by
    rw [digitSum_succ, digitSum_succ]
    rcases Nat.lt_or_ge i n with h' | h'
    · have := digitSum_lex ha hi n h' fun j h1 h2 => he j h1 (by omega)
      rw [he n h' (by omega)]; omega
    · obtain rfl : i = n := by omega
      have h1 := digitSum_lt ha i
      have h2 : (a i + 1) * q ^ i ≤ b i * q ^ i := Nat.mul_le_mul_right _ hi
      linarith

/-- digits above the top contribute nothing -/
theorem digitSum_ext {q : ℕ} {a : ℕ → ℕ} {m n : ℕ} (hmn : m ≤ n) (h : ∀ i, m ≤ i → a i = 0) : digitSum q a n = digitSum q a m := by
  induction n, hmn using Nat.le_induction with
  | base => rfl
  | succ n hn ih => rw [digitSum_succ, ih, h n hn]; simp

theorem digitSum_max {q : ℕ} (hq : 0 < q) {a : ℕ → ℕ} {n : ℕ} (h : ∀ i, i < n → a i = q - 1) : digitSum q a n + 1 = q ^ n := by
  induction n with
  | zero => simp [digitSum]
  | succ n ih =>
    have := ih fun i hi => h i (by omega)
    rw [digitSum_succ, h n (by omega), pow_succ]
    obtain ⟨r, rfl⟩ : ∃ r, q = r + 1 := ⟨q - 1, by omega⟩
    rw [Nat.add_sub_cancel]
    generalize (r + 1) ^ n = A at *
    rw [mul_add, mul_one, mul_comm A r]; omega

theorem digitSum_zero {q : ℕ} {a : ℕ → ℕ} {n : ℕ} (h : ∀ i, i < n → a i = 0) : digitSum q a n = 0 := by
  unfold digitSum
  exact Finset.sum_eq_zero fun i hi => by rw [h i (Finset.mem_range.mp hi), zero_mul]

/-- adding one with carry -/
theorem digitSum_incr {q : ℕ} (hq : 0 < q) {a b : ℕ → ℕ} {i : ℕ} (h1 : ∀ j, j < i → a j = q - 1) (h2 : ∀ j, j < i → b j = 0)
    (h3 : b i = a i + 1) : ∀ n, i < n → (∀ j, i < j → j < n → b j = a j) → digitSum q b n = digitSum q a n + 1
  | 0, h, _ => by omega
  | n + 1, h, he => by
    rw [digitSum_succ, digitSum_succ]
    rcases Nat.lt_or_ge i n with h' | h'
    · have := digitSum_incr hq h1 h2 h3 n h' fun j a b => he j a (by omega)
      rw [he n h' (by omega)]; omega
    · obtain rfl : i = n := by omega
      have h4 := digitSum_max hq h1
      rw [digitSum_zero h2, h3, add_mul]; omega

theorem exists_coeffs {R : Type} [CommRing R] (c : ℕ → R) (n : ℕ) : ∃ g : R[X], ∀ j, g.coeff j = if j < n then c j else 0 := by
  refine ⟨∑ j ∈ Finset.range n, monomial j (c j), fun j => ?_⟩
  rw [finset_sum_coeff]
  simp only [coeff_monomial]
  rw [Finset.sum_ite_eq' (Finset.range n) j c]
  simp

variable {R : Type} [CommRing R]

/-- What makes coefficients readable as digits. -/
structure Digits (q : ℕ) (kv : R → ℕ) : Prop where
  zero : kv 0 = 0
  lt : ∀ x, kv x < q
  inj : Function.Injective kv

/-- the value of the polynomial read as a base-`q` number -/
noncomputable def polyKey (q : ℕ) (kv : R → ℕ) (f : R[X]) : ℕ := digitSum q (fun i => kv (f.coeff i)) (f.natDegree + 1)

namespace Digits
variable {q : ℕ} {kv : R → ℕ} (D : Digits q kv)
include D

theorem ext {f : R[X]} {n : ℕ} (h : f.natDegree < n) : polyKey q kv f = digitSum q (fun i => kv (f.coeff i)) n := by
  unfold polyKey
  rw [digitSum_ext (n := n) (m := f.natDegree + 1) (by omega) fun i hi => by
    rw [coeff_eq_zero_of_natDegree_lt (by omega), D.zero]]

theorem key_lt (f : R[X]) : polyKey q kv f < q ^ (f.natDegree + 1) := digitSum_lt (fun _ => D.lt _) _

theorem le_key {f : R[X]} (hf : f ≠ 0) : q ^ f.natDegree ≤ polyKey q kv f := by
  unfold polyKey
  rw [digitSum_succ]
  have : kv (f.coeff f.natDegree) ≠ 0 := by
    intro h
    have := D.inj (h.trans D.zero.symm)
    exact hf (leadingCoeff_eq_zero.mp this)
  have h2 : 1 * q ^ f.natDegree ≤ kv (f.coeff f.natDegree) * q ^ f.natDegree := Nat.mul_le_mul_right _ (by omega)
  omega

/-- the top digit -/
theorem key_lead (f : R[X]) : ∃ r, r < q ^ f.natDegree ∧ polyKey q kv f = r + kv f.leadingCoeff * q ^ f.natDegree := by
  refine ⟨digitSum q (fun i => kv (f.coeff i)) f.natDegree, digitSum_lt (fun _ => D.lt _) _, ?_⟩
  unfold polyKey
  rw [digitSum_succ]; rfl

theorem pos : 0 < q := (Nat.zero_le _).trans_lt (D.lt 0)

theorem key_inj : Function.Injective (polyKey q kv : R[X] → ℕ) := by
  intro f g h
  by_contra hne
  set n := max f.natDegree g.natDegree + 1 with hn
  rw [D.ext (f := f) (n := n) (by omega), D.ext (f := g) (n := n) (by omega)] at h
  have hex : ∃ i, i < n ∧ f.coeff i ≠ g.coeff i := by
    by_contra hc
    push Not at hc
    apply hne
    ext i
    rcases Nat.lt_or_ge i n with hi | hi
    · exact hc i hi
    · rw [coeff_eq_zero_of_natDegree_lt (by omega), coeff_eq_zero_of_natDegree_lt (by omega)]
  classical
  obtain ⟨i, ⟨hi, hin⟩, hmax⟩ : ∃ i, (i < n ∧ f.coeff i ≠ g.coeff i) ∧ ∀ j, i < j → j < n → f.coeff j = g.coeff j := by
    have hs : ((Finset.range n).filter fun i => f.coeff i ≠ g.coeff i).Nonempty := by
      obtain ⟨i, h1, h2⟩ := hex
      exact ⟨i, by simp [h1, h2]⟩
    have hm := Finset.max'_mem _ hs
    rw [Finset.mem_filter, Finset.mem_range] at hm
    refine ⟨_, hm, fun j hj hjn => ?_⟩
    by_contra hc
    have := Finset.le_max' _ j (by simp [hjn, hc] : j ∈ (Finset.range n).filter fun i => f.coeff i ≠ g.coeff i)
    omega
  rcases Nat.lt_trichotomy (kv (f.coeff i)) (kv (g.coeff i)) with h1 | h1 | h1
  · exact absurd h (digitSum_lex (fun _ => D.lt _) h1 n hi fun j a b => by rw [hmax j a b]).ne
  · exact hin (D.inj h1)
  · exact absurd h.symm (digitSum_lex (fun _ => D.lt _) h1 n hi fun j a b => by rw [hmax j a b]).ne

/-- comparing degrees, then coefficients from the top -/
theorem key_lt_key {f g : R[X]} (h : f.natDegree < g.natDegree ∨ (f.natDegree = g.natDegree ∧ ∃ i, i < f.natDegree + 1 ∧
    kv (f.coeff i) < kv (g.coeff i) ∧ ∀ j, i < j → j < f.natDegree + 1 → f.coeff j = g.coeff j)) : polyKey q kv f < polyKey q kv g := by
  rcases h with h | ⟨h, i, hi, h1, h2⟩
  · have hg : g ≠ 0 := by rintro rfl; simp at h
    exact (D.key_lt f).trans_le ((Nat.pow_le_pow_right D.pos (by omega)).trans (D.le_key hg))
  · unfold polyKey
    rw [← h]
    exact digitSum_lex (fun _ => D.lt _) h1 _ hi fun j a b => by rw [h2 j a b]

theorem natDegree_of_key {f : R[X]} {d : ℕ} (hq : 2 ≤ q) (h1 : q ^ d ≤ polyKey q kv f) (h2 : polyKey q kv f < q ^ (d + 1)) : f.natDegree = d := by
  have hf : f ≠ 0 := by
    rintro rfl
    have h3 := Nat.pow_pos (n := d) D.pos
    simp [polyKey, digitSum, D.zero] at h1
    omega
  have a := D.le_key hf
  have b := D.key_lt f
  have c1 : f.natDegree < d + 1 := (Nat.pow_lt_pow_iff_right (by omega)).mp (a.trans_lt h2)
  have c2 : d < f.natDegree + 1 := (Nat.pow_lt_pow_iff_right (by omega)).mp (h1.trans_lt b)
  omega

theorem key_X_pow (h1 : kv 1 = 1) [Nontrivial R] (d : ℕ) : polyKey q kv (X ^ d : R[X]) = q ^ d := by
  unfold polyKey
  rw [natDegree_X_pow, digitSum_succ, coeff_X_pow, if_pos rfl, h1, one_mul]
  have : digitSum q (fun i => kv ((X ^ d : R[X]).coeff i)) d = 0 := by
    unfold digitSum
    refine Finset.sum_eq_zero fun i hi => ?_
    dsimp only
    rw [coeff_X_pow, if_neg (by have := Finset.mem_range.mp hi; omega), D.zero, zero_mul]
  omega

theorem monic_of_key (h1 : kv 1 = 1) {f : R[X]} (hf : f ≠ 0) (h : polyKey q kv f < 2 * q ^ f.natDegree) : f.Monic := by
  obtain ⟨r, -, h3⟩ := D.key_lead f
  have hne : kv f.leadingCoeff ≠ 0 := fun h => hf (leadingCoeff_eq_zero.mp (D.inj (h.trans D.zero.symm)))
  have hlt : kv f.leadingCoeff < 2 := by
    by_contra hc
    have : 2 * q ^ f.natDegree ≤ kv f.leadingCoeff * q ^ f.natDegree := Nat.mul_le_mul_right _ (by omega)
    omega
  exact D.inj ((by omega : kv f.leadingCoeff = 1).trans h1.symm)

theorem key_monic (h1 : kv 1 = 1) {f : R[X]} (hf : f.Monic) : polyKey q kv f < 2 * q ^ f.natDegree := by
  obtain ⟨r, h2, h3⟩ := D.key_lead f
  rw [hf.leadingCoeff, h1] at h3; omega

end Digits
end Spffl
