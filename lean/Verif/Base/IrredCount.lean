/-
The number of monic irreducible polynomials of a degree over a finite field.
-/
import Mathlib.FieldTheory.Finite.Extension
import Mathlib.NumberTheory.ArithmeticFunction.Moebius

namespace Spffl
open Polynomial UniqueFactorizationMonoid

/-- the number of monic irreducible polynomials of degree `d` over `K` -/
noncomputable def irrCount (K : Type) [Field K] (d : ℕ) : ℕ :=
  Nat.card {f : K[X] // f.Monic ∧ Irreducible f ∧ f.natDegree = d}

/-- The monic irreducible polynomials whose degrees divide `n`; their degrees add up to `q ^ n`. -/
theorem exists_irr_finset {K : Type} [Field K] [Fintype K] {n : ℕ} (hn : 0 < n) :
    ∃ S : Finset K[X], (∀ f, f ∈ S ↔ f.Monic ∧ Irreducible f ∧ f.natDegree ∣ n) ∧ ∑ f ∈ S, f.natDegree = Fintype.card K ^ n := by
  classical
  have hq : 1 < Fintype.card K := Fintype.one_lt_card
  obtain ⟨p, hp⟩ := CharP.exists K
  set F : K[X] := X ^ Fintype.card K ^ n - X with hF
  have hF0 : F ≠ 0 := FiniteField.X_pow_card_pow_sub_X_ne_zero K hn.ne' hq
  have hdeg : F.natDegree = Fintype.card K ^ n := FiniteField.X_pow_card_pow_sub_X_natDegree_eq K hn.ne' hq
  have hpq : p ∣ Fintype.card K := (CharP.cast_eq_zero_iff K p _).1 (FiniteField.cast_card_eq_zero K)
  have hsq : Squarefree F := (galois_poly_separable p _ (hpq.trans (dvd_pow_self _ hn.ne'))).squarefree
  have hnd : (normalizedFactors F).Nodup := (squarefree_iff_nodup_normalizedFactors hF0).1 hsq
  have hmem : ∀ f, f ∈ (normalizedFactors F).toFinset ↔ f.Monic ∧ Irreducible f ∧ f.natDegree ∣ n := by
    intro f
    rw [Multiset.mem_toFinset, Polynomial.mem_normalizedFactors_iff hF0]
    constructor
    · rintro ⟨h1, h2, h3⟩
      exact ⟨h2, h1, h1.natDegree_dvd_iff_dvd_X_pow_card_pow_sub_X.2 (by rwa [Nat.card_eq_fintype_card])⟩
    · rintro ⟨h1, h2, h3⟩
      refine ⟨h2, h1, ?_⟩
      have := h2.natDegree_dvd_iff_dvd_X_pow_card_pow_sub_X.1 h3
      rwa [Nat.card_eq_fintype_card] at this
  have h1 : F.natDegree = ∑ f ∈ (normalizedFactors F).toFinset, f.natDegree := by
    have : (normalizedFactors F).prod.natDegree = F.natDegree :=
      natDegree_eq_of_degree_eq (degree_eq_degree_of_associated (prod_normalizedFactors hF0))
    rw [← this, natDegree_multiset_prod_of_monic]
    · rw [Finset.sum, Multiset.toFinset_val, hnd.dedup]
    · intro f hf
      exact ((Polynomial.mem_normalizedFactors_iff hF0).1 hf).2.1
  exact ⟨_, hmem, by rw [← h1, hdeg]⟩

theorem card_irr_filter {K : Type} [Field K] {n d : ℕ} {S : Finset K[X]} (hS : ∀ f, f ∈ S ↔ f.Monic ∧ Irreducible f ∧ f.natDegree ∣ n)
    (hd : d ∣ n) : (S.filter fun f => f.natDegree = d).card = irrCount K d := by
  rw [irrCount, ← Nat.card_eq_finsetCard]
  refine Nat.card_congr (Equiv.subtypeEquivRight fun f => ?_)
  rw [Finset.mem_filter, hS]
  constructor
  · rintro ⟨⟨h1, h2, _⟩, h3⟩
    exact ⟨h1, h2, h3⟩
  · rintro ⟨h1, h2, h3⟩
    exact ⟨⟨h1, h2, h3 ▸ hd⟩, h3⟩

theorem sum_irrCount {K : Type} [Field K] [Fintype K] {n : ℕ} (hn : 0 < n) :
    ∑ d ∈ n.divisors, d * irrCount K d = Fintype.card K ^ n := by
  obtain ⟨S, hS, h⟩ := exists_irr_finset (K := K) hn
  rw [← h, ← Finset.sum_fiberwise_of_maps_to (t := n.divisors) (g := fun f => f.natDegree)
    fun f hf => Nat.mem_divisors.2 ⟨((hS f).1 hf).2.2, hn.ne'⟩]
  refine Finset.sum_congr rfl fun d hd => ?_
  rw [Finset.sum_congr rfl (g := fun _ => d) fun f hf => (Finset.mem_filter.1 hf).2, Finset.sum_const, smul_eq_mul, mul_comm,
    card_irr_filter hS (Nat.mem_divisors.1 hd).1]

/-- The number of monic irreducible polynomials whose degrees divide `n`. -/
theorem card_irr_dvd {K : Type} [Field K] [Fintype K] {n : ℕ} (hn : 0 < n) :
    Nat.card {f : K[X] // f.Monic ∧ Irreducible f ∧ f.natDegree ∣ n} = ∑ d ∈ n.divisors, irrCount K d := by
  obtain ⟨S, hS, -⟩ := exists_irr_finset (K := K) hn
  rw [Nat.card_congr (Equiv.subtypeEquivRight fun f => (hS f).symm), Nat.card_eq_finsetCard,
    Finset.card_eq_sum_card_fiberwise (t := n.divisors) (f := fun f => f.natDegree)
      fun f hf => Nat.mem_divisors.2 ⟨((hS f).1 hf).2.2, hn.ne'⟩]
  exact Finset.sum_congr rfl fun d hd => card_irr_filter hS (Nat.mem_divisors.1 hd).1

theorem moebius_irrCount {K : Type} [Field K] [Fintype K] {n : ℕ} (hn : 0 < n) :
    ∑ d ∈ n.divisors, ArithmeticFunction.moebius (n / d) * (Fintype.card K : ℤ) ^ d = n * irrCount K n := by
  have h := (ArithmeticFunction.sum_eq_iff_sum_mul_moebius_eq (R := ℤ) (f := fun d => (d : ℤ) * irrCount K d)
    (g := fun n => (Fintype.card K : ℤ) ^ n)).1 (fun n hn => by
      have := sum_irrCount (K := K) hn
      exact_mod_cast this) n hn
  rw [← h]
  exact (Nat.sum_divisorsAntidiagonal' (fun a b => ArithmeticFunction.moebius a * (Fintype.card K : ℤ) ^ b)).symm

end Spffl
