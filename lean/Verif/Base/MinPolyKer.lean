/-
The minimal polynomial of an element of K[x]/(M) from the kernel of the matrix of its powers.
-/
import Mathlib.RingTheory.AdjoinRoot
import Mathlib.FieldTheory.Minpoly.Field
import Mathlib.LinearAlgebra.FiniteDimensional.Lemmas
import Mathlib.LinearAlgebra.Matrix.ToLin

namespace Spffl
open Polynomial

variable {K : Type*} [Field K] {M : K[X]} {x : AdjoinRoot M} {r : ℕ → K[X]} {l n : ℕ}

/-- column `j` holds the coefficients of `r j` -/
def powMat (r : ℕ → K[X]) (n l : ℕ) : Matrix (Fin n) (Fin (l + 1)) K := Matrix.of fun i j => (r j).coeff i

/-- the polynomial with the given coefficients -/
noncomputable def vecPoly {k : ℕ} (c : Fin k → K) : K[X] := ∑ j : Fin k, C (c j) * X ^ (j : ℕ)

theorem vecPoly_coeff {k : ℕ} (c : Fin k → K) (j : Fin k) : (vecPoly c).coeff j = c j := by
  unfold vecPoly
  rw [finset_sum_coeff, Finset.sum_eq_single j]
  · simp
  · intro b _ hb
    rw [coeff_C_mul_X_pow, if_neg fun h => hb (Fin.ext h.symm)]
  · simp

theorem vecPoly_degree {k : ℕ} (c : Fin (k + 1) → K) : (vecPoly c).natDegree ≤ k := by
  unfold vecPoly
  refine natDegree_sum_le_of_forall_le _ _ fun j _ => ?_
  exact (natDegree_C_mul_X_pow_le _ _).trans (by omega)

theorem powMat_ker (hM : M ≠ 0) (hn : n = M.natDegree) (hdeg : ∀ j, (r j).degree < M.degree) (hmk : ∀ j, AdjoinRoot.mk M (r j) = x ^ j)
    (c : Fin (l + 1) → K) : (powMat r n l).mulVec c = 0 ↔ aeval x (vecPoly c) = 0 := by
  have e1 : aeval x (vecPoly c) = AdjoinRoot.mk M (∑ j : Fin (l + 1), C (c j) * r j) := by
    unfold vecPoly
    rw [map_sum, map_sum]
    refine Finset.sum_congr rfl fun j _ => ?_
    rw [map_mul, map_mul, hmk, map_pow, aeval_X, aeval_C, AdjoinRoot.mk_C]; rfl
  have hd : (∑ j : Fin (l + 1), C (c j) * r j).degree < M.degree := by
    refine lt_of_le_of_lt (degree_sum_le _ _) ?_
    rw [Finset.sup_lt_iff (bot_lt_iff_ne_bot.mpr (by rwa [Ne, degree_eq_bot]))]
    intro j _
    refine lt_of_le_of_lt ?_ (hdeg j)
    rw [← smul_eq_C_mul]; exact degree_smul_le _ _
  have e2 : aeval x (vecPoly c) = 0 ↔ ∑ j : Fin (l + 1), C (c j) * r j = 0 := by
    rw [e1, AdjoinRoot.mk_eq_zero]
    exact ⟨fun h => eq_zero_of_dvd_of_degree_lt h hd, fun h => by rw [h]; exact dvd_zero _⟩
  have e3 : ∀ i : ℕ, (∑ j : Fin (l + 1), C (c j) * r j).coeff i = ∑ j : Fin (l + 1), (r j).coeff i * c j := fun i => by
    rw [finset_sum_coeff]
    exact Finset.sum_congr rfl fun j _ => by rw [coeff_C_mul, mul_comm]
  rw [e2]
  constructor
  · intro h
    ext i
    by_cases hi : i < n
    · have := congrFun h ⟨i, hi⟩
      rw [e3, coeff_zero]; exact this
    · rw [coeff_zero]
      refine coeff_eq_zero_of_degree_lt (lt_of_lt_of_le hd ?_)
      rw [degree_eq_natDegree hM, ← hn]; exact_mod_cast Nat.le_of_not_lt hi
  · intro h
    ext i
    show ∑ j : Fin (l + 1), (r j).coeff i * c j = 0
    rw [← e3, h, coeff_zero]

/-- a basis of the kernel is one multiple of the coefficients of the minimal polynomial -/
theorem minpoly_row (hM : M ≠ 0) (hn : n = M.natDegree) (h0 : 0 < n) (hl : l = (minpoly K x).natDegree) (hdeg : ∀ j, (r j).degree < M.degree)
    (hmk : ∀ j, AdjoinRoot.mk M (r j) = x ^ j) {d : ℕ} {B : Matrix (Fin d) (Fin (l + 1)) K} (hind : LinearIndependent K fun i => B i)
    (hspan : Submodule.span K (Set.range fun i => B i) = LinearMap.ker (powMat r n l).mulVecLin) :
    d = 1 ∧ ∀ i, ∃ s, s ≠ 0 ∧ ∀ j : Fin (l + 1), B i j = s * (minpoly K x).coeff j := by
  haveI : Module.Finite K (AdjoinRoot M) := (AdjoinRoot.powerBasis hM).finite
  haveI : Nontrivial (AdjoinRoot M) := AdjoinRoot.nontrivial M (by rw [degree_eq_natDegree hM, ← hn]; exact_mod_cast h0.ne')
  have hi : IsIntegral K x := Algebra.IsIntegral.isIntegral x
  have hmon := minpoly.monic hi
  have hker : ∀ c, c ∈ LinearMap.ker (powMat r n l).mulVecLin ↔ aeval x (vecPoly c) = 0 := fun c => by
    rw [LinearMap.mem_ker, Matrix.mulVecLin_apply]; exact powMat_ker hM hn hdeg hmk c
  let v : Fin (l + 1) → K := fun j => (minpoly K x).coeff j
  have hv1 : v ⟨l, by omega⟩ = 1 := by simp only [v]; rw [hl]; exact hmon
  have hv0 : v ≠ 0 := fun h => by rw [h] at hv1; simp at hv1
  have hvp : vecPoly v = minpoly K x := by
    ext i
    by_cases hi' : i < l + 1
    · exact vecPoly_coeff v ⟨i, hi'⟩
    · rw [coeff_eq_zero_of_natDegree_lt (by have := vecPoly_degree v; omega), coeff_eq_zero_of_natDegree_lt (by omega)]
  have hmul : ∀ c : Fin (l + 1) → K, aeval x (vecPoly c) = 0 → ∃ s : K, c = s • v := fun c hc => by
    obtain ⟨q, hq⟩ := minpoly.dvd K x hc
    by_cases hq0 : q = 0
    · refine ⟨0, ?_⟩
      ext j; rw [← vecPoly_coeff c j, hq, hq0]; simp
    · have h1 := vecPoly_degree c
      rw [hq, natDegree_mul hmon.ne_zero hq0, ← hl] at h1
      have h2 : q = C (q.coeff 0) := eq_C_of_natDegree_eq_zero (by omega)
      refine ⟨q.coeff 0, ?_⟩
      ext j
      rw [← vecPoly_coeff c j, hq, h2, mul_comm, coeff_C_mul]; simp [v]
  have hspan2 : LinearMap.ker (powMat r n l).mulVecLin = Submodule.span K {v} := by
    ext c
    rw [hker, Submodule.mem_span_singleton]
    constructor
    · intro h; obtain ⟨s, hs⟩ := hmul c h; exact ⟨s, hs.symm⟩
    · rintro ⟨s, rfl⟩
      have : s • v ∈ LinearMap.ker (powMat r n l).mulVecLin := Submodule.smul_mem _ _ ((hker v).mpr (by rw [hvp]; exact minpoly.aeval K x))
      exact (hker _).mp this
  constructor
  · have := finrank_span_eq_card hind
    rw [hspan, hspan2, finrank_span_singleton hv0, Fintype.card_fin] at this
    exact this.symm
  · intro i
    have : B i ∈ LinearMap.ker (powMat r n l).mulVecLin := by rw [← hspan]; exact Submodule.subset_span ⟨i, rfl⟩
    obtain ⟨s, hs⟩ := hmul _ ((hker _).mp this)
    refine ⟨s, ?_, fun j => congrFun hs j⟩
    rintro rfl
    exact hind.ne_zero i (by rw [hs, zero_smul])

/-- the kernel is not trivial -/
theorem powMat_ker_ne (hM : M ≠ 0) (hn : n = M.natDegree) (h0 : 0 < n) (hl : l = (minpoly K x).natDegree) (hdeg : ∀ j, (r j).degree < M.degree)
    (hmk : ∀ j, AdjoinRoot.mk M (r j) = x ^ j) : LinearMap.ker (powMat r n l).mulVecLin ≠ ⊥ := by
  intro h
  have := (minpoly_row (B := fun (i : Fin 0) _ => (0 : K)) hM hn h0 hl hdeg hmk (linearIndependent_empty_type) (by rw [h]; simp)).1
  omega

end Spffl
