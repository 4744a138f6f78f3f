/-
The Frobenius orbit of an element of a finite field: its length is the degree of the minimal polynomial, whose roots
it is; characteristic polynomial of the multiplication by the element.
-/
import Mathlib.FieldTheory.Finite.Basic
import Mathlib.FieldTheory.IntermediateField.Adjoin.Basic
import Mathlib.LinearAlgebra.Matrix.Charpoly.Minpoly
import Mathlib.LinearAlgebra.Charpoly.ToMatrix
import Mathlib.LinearAlgebra.Matrix.Charpoly.Coeff

namespace Spffl
open Polynomial IntermediateField

section
variable {K L : Type} [Field K] [Fintype K] [Field L] [Algebra K L] [Finite L]

theorem frob_pow_apply (k : ℕ) (x : L) : (FiniteField.frobeniusAlgHom K L ^ k) x = x ^ Fintype.card K ^ k := by
  rw [AlgHom.coe_pow, FiniteField.coe_frobeniusAlgHom, pow_iterate]

/-- `a^(q^l) = a` exactly for the multiples `l` of the degree of `a` -/
theorem frob_fix_iff (a : L) (l : ℕ) : a ^ Fintype.card K ^ l = a ↔ (minpoly K a).natDegree ∣ l := by
  haveI : FiniteDimensional K L := Module.Finite.of_finite
  have hi : IsIntegral K a := Algebra.IsIntegral.isIntegral a
  have hfin : Module.finrank K K⟮a⟯ = (minpoly K a).natDegree := adjoin.finrank hi
  rw [← hfin, ← FiniteField.orderOf_frobeniusAlgHom K K⟮a⟯, orderOf_dvd_iff_pow_eq_one]
  constructor
  · intro h
    refine (adjoin.powerBasis hi).algHom_ext ?_
    rw [frob_pow_apply, AlgHom.one_apply, adjoin.powerBasis_gen]
    apply Subtype.ext
    simpa using h
  · intro h
    have := DFunLike.congr_fun h (AdjoinSimple.gen K a)
    rw [frob_pow_apply, AlgHom.one_apply] at this
    simpa using congrArg (algebraMap K⟮a⟯ L) this

theorem frob_inj_lt (a : L) {i j : ℕ} (hij : i < j) (hj : j < (minpoly K a).natDegree) : a ^ Fintype.card K ^ i ≠ a ^ Fintype.card K ^ j := by
  intro h
  have h1 : a ^ Fintype.card K ^ (j - i) = a := by
    have hinj : Function.Injective (FiniteField.frobeniusAlgHom K L ^ i) := RingHom.injective (FiniteField.frobeniusAlgHom K L ^ i).toRingHom
    apply hinj
    rw [frob_pow_apply, frob_pow_apply, ← pow_mul, ← pow_add, Nat.sub_add_cancel hij.le, h]
  have := Nat.le_of_dvd (by omega) ((frob_fix_iff a _).mp h1)
  omega

/-- the minimal polynomial is the product over the orbit -/
theorem frob_prod_min (a : L) : ∏ i ∈ Finset.range (minpoly K a).natDegree, (X - C (a ^ Fintype.card K ^ i)) = (minpoly K a).map (algebraMap K L) := by
  haveI : FiniteDimensional K L := Module.Finite.of_finite
  have hi : IsIntegral K a := Algebra.IsIntegral.isIntegral a
  rw [← Fin.prod_univ_eq_prod_range (fun i => X - C (a ^ Fintype.card K ^ i))]
  have hm := (minpoly.monic hi).map (algebraMap K L)
  refine (eq_of_monic_of_dvd_of_natDegree_le (monic_prod_of_monic _ _ fun i _ => monic_X_sub_C _) hm ?_ ?_).symm
  · refine Finset.prod_dvd_of_coprime (fun i _ j _ hne => pairwise_coprime_X_sub_C (s := fun i : Fin _ => a ^ Fintype.card K ^ (i : ℕ)) ?_ hne) fun i _ => ?_
    · intro i j h
      rcases lt_trichotomy i j with hlt | heq | hlt
      · exact absurd h (frob_inj_lt a hlt j.2)
      · exact heq
      · exact absurd h.symm (frob_inj_lt a hlt i.2)
    · rw [dvd_iff_isRoot, IsRoot.def, eval_map_algebraMap, ← frob_pow_apply, aeval_algHom_apply, minpoly.aeval, map_zero]
  · rw [natDegree_map, natDegree_prod_of_monic _ _ fun i _ => monic_X_sub_C _]
    simp only [natDegree_X_sub_C, Finset.sum_const, Finset.card_univ, Fintype.card_fin, smul_eq_mul, mul_one, le_refl]

omit [Fintype K] [Finite L] in
/-- the characteristic polynomial of the multiplication by `a` -/
theorem charpoly_mul (a : L) [FiniteDimensional K L] :
    (Algebra.lmul K L a).charpoly = minpoly K a ^ (Module.finrank K L / (minpoly K a).natDegree) := by
  classical
  have hi : IsIntegral K a := Algebra.IsIntegral.isIntegral a
  let pb := adjoin.powerBasis hi
  let c := Module.finBasis K⟮a⟯ L
  let b := pb.basis.smulTower c
  have h1 : (Algebra.lmul K L a).charpoly = (Algebra.leftMulMatrix b a).charpoly := by
    rw [Algebra.leftMulMatrix_apply, LinearMap.charpoly_toMatrix]
  have h2 : Algebra.leftMulMatrix b a = Matrix.blockDiagonal fun _ => Algebra.leftMulMatrix pb.basis pb.gen := by
    have := Algebra.smulTower_leftMulMatrix_algebraMap pb.basis c pb.gen
    rw [← this]
    congr 1
  have h3 : (Matrix.blockDiagonal fun _ : Fin (Module.finrank K⟮a⟯ L) => Algebra.leftMulMatrix pb.basis pb.gen).charpoly =
      (Algebra.leftMulMatrix pb.basis pb.gen).charpoly ^ Module.finrank K⟮a⟯ L := by
    unfold Matrix.charpoly
    have : (Matrix.blockDiagonal fun _ : Fin (Module.finrank K⟮a⟯ L) => Algebra.leftMulMatrix pb.basis pb.gen).charmatrix =
        Matrix.blockDiagonal fun _ => (Algebra.leftMulMatrix pb.basis pb.gen).charmatrix := by
      ext1 ⟨i, k⟩ ⟨j, k'⟩
      rw [Matrix.charmatrix_apply, Matrix.blockDiagonal_apply, Matrix.blockDiagonal_apply, Matrix.charmatrix_apply]
      by_cases hk : k = k'
      · subst hk
        by_cases hij : i = j
        · subst hij; simp
        · simp [hij]
      · have : ((i, k) : _ × _) ≠ (j, k') := fun h => hk (congrArg Prod.snd h)
        simp [this, hk]
    rw [this, Matrix.det_blockDiagonal]
    simp
  rw [h1, h2, h3, charpoly_leftMulMatrix]
  have hg : minpoly K pb.gen = minpoly K a := by
    show minpoly K (adjoin.powerBasis hi).gen = _
    rw [adjoin.powerBasis_gen, minpoly_gen]
  rw [hg]
  congr 1
  have hfin : Module.finrank K K⟮a⟯ = (minpoly K a).natDegree := adjoin.finrank hi
  rw [← Module.finrank_mul_finrank K K⟮a⟯ L, hfin, Nat.mul_div_cancel_left _ (minpoly.natDegree_pos hi)]

/-- the degree of an element divides the degree of the field -/
theorem minpoly_natDegree_dvd (a : L) : (minpoly K a).natDegree ∣ Module.finrank K L := by
  haveI : FiniteDimensional K L := Module.Finite.of_finite
  exact minpoly.degree_dvd (Algebra.IsIntegral.isIntegral a)

/-- the characteristic polynomial is the product over as many conjugates as the degree of the field -/
theorem frob_prod_char (a : L) :
    ∏ i ∈ Finset.range (Module.finrank K L), (X - C (a ^ Fintype.card K ^ i)) = ((Algebra.lmul K L a).charpoly).map (algebraMap K L) := by
  haveI : FiniteDimensional K L := Module.Finite.of_finite
  obtain ⟨k, hk⟩ := minpoly_natDegree_dvd (K := K) a
  have hpos := minpoly.natDegree_pos (A := K) (Algebra.IsIntegral.isIntegral (R := K) a)
  rw [charpoly_mul, Polynomial.map_pow, ← frob_prod_min, hk, Nat.mul_div_cancel_left _ hpos]
  clear hk
  induction k with
  | zero => simp
  | succ k ih =>
    rw [Nat.mul_succ, Finset.prod_range_add, ih, pow_succ]
    congr 1
    refine Finset.prod_congr rfl fun i _ => ?_
    rw [pow_add, pow_mul, (frob_fix_iff a _).mpr (dvd_mul_right _ _)]

end
end Spffl
