/-
Proofs about the model of q_cyclotomic: prime powers.
-/
import Verif.Proof.Cyclo2

namespace Spffl
open Res
open Polynomial
open CPoly

namespace Cyclo

/-- `1 + x^a + x^(2a) + … + x^((N-1)a)` -/
noncomputable def Geo (a N : ℕ) : ℤ[X] := ∑ i ∈ Finset.range N, (X ^ a) ^ i

theorem geo_coeff {a N : ℕ} (ha : 0 < a) (i : ℕ) : 0 ≤ (Geo a N).coeff i ∧ (Geo a N).coeff i ≤ 1 := by
  have e : (Geo a N).coeff i = (((Finset.range N).filter (fun t => i = a * t)).card : ℤ) := by
    unfold Geo
    rw [finset_sum_coeff, Finset.card_filter]
    push_cast
    refine Finset.sum_congr rfl fun t _ => ?_
    rw [← pow_mul, coeff_X_pow]
  rw [e]
  refine ⟨by positivity, ?_⟩
  have : ((Finset.range N).filter (fun t => i = a * t)).card ≤ 1 := by
    rw [Finset.card_le_one]
    intro x hx y hy
    have h1 := (Finset.mem_filter.mp hx).2
    have h2 := (Finset.mem_filter.mp hy).2
    exact Nat.eq_of_mul_eq_mul_left ha (h1.symm.trans h2)
  exact_mod_cast this

theorem P_geo {p k j : ℕ} (hp : p.Prime) (hjk : j ≤ k) : P ℤ (p ^ k) (p ^ j + 1) = Geo (p ^ j) (p ^ (k - j)) := by
  have hpk : 0 < p ^ k := pow_pos hp.pos k
  have hpj : 0 < p ^ j := pow_pos hp.pos j
  have hne : (X ^ p ^ j - 1 : ℤ[X]) ≠ 0 := X_pow_sub_C_ne_zero hpj 1
  apply mul_right_cancel₀ hne
  have h1 : Geo (p ^ j) (p ^ (k - j)) * (X ^ p ^ j - 1) = X ^ p ^ k - 1 := by
    unfold Geo
    rw [geom_sum_mul, ← pow_mul, ← pow_add, show j + (k - j) = k by omega]
  rw [h1, ← prod_cyclotomic_eq_X_pow_sub_one hpk, ← prod_cyclotomic_eq_X_pow_sub_one hpj]
  unfold P
  rw [← Finset.prod_filter_mul_prod_filter_not (p ^ k).divisors (p ^ j + 1 ≤ ·)]
  congr 1
  apply Finset.prod_congr _ fun _ _ => rfl
  ext i
  simp only [Finset.mem_filter, Nat.mem_divisors]
  constructor
  · rintro ⟨h, _⟩
    exact ⟨⟨h.trans (pow_dvd_pow p hjk), hpk.ne'⟩, by have := Nat.le_of_dvd hpj h; omega⟩
  · rintro ⟨⟨h, _⟩, h2⟩
    obtain ⟨t, ht, rfl⟩ := (Nat.dvd_prime_pow hp).mp h
    refine ⟨pow_dvd_pow p ?_, hpj.ne'⟩
    exact (Nat.pow_le_pow_iff_right hp.one_lt).mp (by omega)

theorem P_next {p k j : ℕ} (hp : p.Prime) : P ℤ (p ^ k) (p ^ (j + 1)) = P ℤ (p ^ k) (p ^ j + 1) := by
  unfold P
  apply Finset.prod_congr _ fun _ _ => rfl
  ext i
  simp only [Finset.mem_filter, Nat.mem_divisors]
  refine and_congr_right fun ⟨h, _⟩ => ?_
  obtain ⟨t, ht, rfl⟩ := (Nat.dvd_prime_pow hp).mp h
  rw [Nat.pow_le_pow_iff_right hp.one_lt, Nat.add_one_le_iff, Nat.add_one_le_iff, Nat.pow_lt_pow_iff_right hp.one_lt]

theorem phi_geo {p j : ℕ} (hp : p.Prime) : cyclotomic (p ^ (j + 1)) ℤ = Geo (p ^ j) p :=
  cyclotomic_prime_pow_eq_geom_sum hp

theorem tame_prime_pow {p k : ℕ} (hp : p.Prime) : Tame (p ^ k) := by
  intro m d hmn hdm hlt
  obtain ⟨l, _, rfl⟩ := (Nat.dvd_prime_pow hp).mp hmn
  obtain ⟨j, _, rfl⟩ := (Nat.dvd_prime_pow hp).mp hdm
  have hjl : j ≤ l := ((Nat.pow_lt_pow_iff_right hp.one_lt).mp hlt).le
  have hpl : 0 < p ^ l := pow_pos hp.pos l
  have hq : ∀ i, |(P ℤ (p ^ l) (p ^ j + 1)).coeff i| = (P ℤ (p ^ l) (p ^ j + 1)).coeff i := fun i => by
    rw [P_geo hp hjl]; exact abs_of_nonneg (geo_coeff (pow_pos hp.pos j) i).1
  cases j with
  | zero =>
    refine ⟨P ℤ (p ^ l) (p ^ 0 + 1), X + 1, fun i => (hq i).le, fun i => ?_, fun i => ?_⟩
    · rw [pow_zero, cyclotomic_one, coeff_sub, coeff_add, coeff_X, coeff_one]
      split <;> split <;> simp
    · rw [P_geo hp hjl, mul_add, mul_one, coeff_add]
      have h1 : |(P ℤ (p ^ l) (p ^ 0)).coeff i| ≤ 1 := by
        rw [pow_zero, P_one hpl, coeff_sub, coeff_X_pow, coeff_one]
        split <;> split <;> simp
      have h2 : (Geo (p ^ 0) (p ^ (l - 0)) * X).coeff i ≤ 1 := by
        cases i with
        | zero => simp
        | succ i => rw [coeff_mul_X]; exact (geo_coeff (pow_pos hp.pos 0) i).2
      have h3 := (geo_coeff (N := p ^ (l - 0)) (pow_pos hp.pos 0) i).2
      omega
  | succ j =>
    refine ⟨P ℤ (p ^ l) (p ^ (j + 1) + 1), cyclotomic (p ^ (j + 1)) ℤ, fun i => (hq i).le, fun i => ?_, fun i => ?_⟩
    · rw [phi_geo hp]; exact (abs_of_nonneg (geo_coeff (pow_pos hp.pos j) i).1).le
    · rw [← P_dvd hpl hdm, P_next hp, P_geo hp (by omega)]
      have h := geo_coeff (N := p ^ (l - j)) (pow_pos hp.pos j) i
      rw [abs_of_nonneg h.1]; omega

end Cyclo
end Spffl
