/-
The characteristic polynomial of a companion matrix, in the form used by spffl: the negated coefficients in the
first row, ones below the diagonal.
-/
import Mathlib.LinearAlgebra.Matrix.Charpoly.Coeff

namespace Spffl
open Polynomial Matrix

/-- coefficients `-g_{n-1}, ..., -g_0` in row 0, ones below the diagonal, zeros elsewhere -/
def companion {R : Type} [CommRing R] (n : ℕ) (g : R[X]) : Matrix (Fin n) (Fin n) R :=
  Matrix.of fun i j => if (i : ℕ) = 0 then -g.coeff (n - 1 - j) else if (i : ℕ) = j + 1 then 1 else 0

variable {R : Type} [CommRing R] {n : ℕ}

theorem companion_mulVec {g : R[X]} (hg : g.Monic) (hd : g.natDegree = n) (hn : 0 < n) :
    (charmatrix (companion n g)) *ᵥ (fun j : Fin n => X ^ (n - 1 - (j : ℕ))) = Pi.single ⟨0, hn⟩ g := by
  ext1 i
  have hrow : ((charmatrix (companion n g)) *ᵥ (fun j : Fin n => X ^ (n - 1 - (j : ℕ)))) i =
      X * X ^ (n - 1 - (i : ℕ)) - ∑ j : Fin n, C (companion n g i j) * X ^ (n - 1 - (j : ℕ)) := by
    rw [mulVec, dotProduct]
    simp only [charmatrix_apply, sub_mul, Finset.sum_sub_distrib, Matrix.diagonal_apply, ite_mul, zero_mul]
    rw [Finset.sum_ite_eq Finset.univ i, if_pos (Finset.mem_univ _)]
  rw [hrow]
  by_cases hi : (i : ℕ) = 0
  · have : i = ⟨0, hn⟩ := Fin.ext hi
    subst this
    rw [Pi.single_eq_same]
    have h1 : (∑ j : Fin n, C (companion n g ⟨0, hn⟩ j) * X ^ (n - 1 - (j : ℕ))) =
        -∑ k ∈ Finset.range n, C (g.coeff k) * X ^ k := by
      rw [← Finset.sum_neg_distrib, ← Finset.sum_range_reflect, Finset.sum_range]
      refine Finset.sum_congr rfl fun j _ => ?_
      simp [companion]
    rw [h1, sub_neg_eq_add, ← pow_succ']
    conv_rhs => rw [g.as_sum_range_C_mul_X_pow, hd, Finset.sum_range_succ]
    have : g.coeff n = 1 := by rw [← hd]; exact hg
    rw [this, C_1, one_mul, add_comm]
    congr 2
    simp; omega
  · rw [Pi.single_eq_of_ne (by intro h; exact hi (by rw [h]))]
    rw [Finset.sum_eq_single (⟨i - 1, by have := i.2; omega⟩ : Fin n)]
    · have : companion n g i ⟨i - 1, by have := i.2; omega⟩ = 1 := by
        simp only [companion, Matrix.of_apply, if_neg hi]; rw [if_pos (by omega)]
      rw [this, C_1, one_mul, ← pow_succ', sub_eq_zero]
      congr 1
      have := i.2
      simp; omega
    · intro j _ hj
      have : companion n g i j = 0 := by
        simp only [companion, Matrix.of_apply, if_neg hi]
        rw [if_neg]; intro h; exact hj (Fin.ext (by simp; omega))
      rw [this]; simp
    · simp

theorem companion_charpoly [Nontrivial R] {g : R[X]} (hg : g.Monic) (hd : g.natDegree = n) (hn : 0 < n) :
    (companion n g).charpoly = g := by
  have h := congrArg (fun v => (adjugate (charmatrix (companion n g)) *ᵥ v) ⟨n - 1, by omega⟩) (companion_mulVec hg hd hn)
  simp only [mulVec_mulVec, adjugate_mul, smul_mulVec, one_mulVec, Pi.smul_apply, smul_eq_mul] at h
  rw [Nat.sub_self, pow_zero, mul_one, mulVec_single] at h
  have hdvd : g ∣ (companion n g).charpoly := by
    rw [Matrix.charpoly, h]
    simp
  refine (eq_of_monic_of_dvd_of_natDegree_le hg (charpoly_monic _) hdvd ?_)
  rw [charpoly_natDegree_eq_dim, hd, Fintype.card_fin]

end Spffl
