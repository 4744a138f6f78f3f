import Mathlib.LinearAlgebra.Eigenspace.Matrix
import Mathlib.LinearAlgebra.Eigenspace.Charpoly
import Mathlib.LinearAlgebra.Matrix.Charpoly.Coeff
import Mathlib.LinearAlgebra.Matrix.Rank
import Mathlib.LinearAlgebra.Matrix.ToLin
import Mathlib.RingTheory.Radical.Basic
import Mathlib.FieldTheory.Perfect
import Mathlib.FieldTheory.Finite.GaloisField
import Mathlib.RingTheory.AdjoinRoot

open Polynomial Module
namespace Spffl
namespace Diag

/-- There is an invertible matrix of eigenvectors. -/
def Diagonalizable {E : Type*} [Field E] {n : ℕ} (M : Matrix (Fin n) (Fin n) E) : Prop :=
  ∃ (P : Matrix (Fin n) (Fin n) E) (d : Fin n → E), IsUnit P ∧ M * P = P * Matrix.diagonal d

variable {L : Type*} [Field L] {n : ℕ} {A : Matrix (Fin n) (Fin n) L}

theorem diag_of_iSup (h : ⨆ x, End.eigenspace (Matrix.toLin' A) x = ⊤) : Diagonalizable A := by
  classical
  set T := Matrix.toLin' A
  let t : Set (Fin n → L) := {v | ∃ x : L, T v = x • v}
  have ht : Submodule.span L t = ⊤ := by
    rw [eq_top_iff, ← h]
    refine iSup_le fun x v hv => Submodule.subset_span ⟨x, ?_⟩
    exact End.mem_eigenspace_iff.mp hv
  obtain ⟨b, hb, hs, hi⟩ := exists_linearIndependent L t
  let B : Basis b L (Fin n → L) := Basis.mk hi (by rw [Subtype.range_coe_subtype, Set.ofPred_mem_eq, hs, ht])
  have : Fintype b := FiniteDimensional.fintypeBasisIndex B
  have hc : Fintype.card b = Fintype.card (Fin n) := by
    rw [← finrank_eq_card_basis B, finrank_fintype_fun_eq_card]
  let B' := B.reindex (Fintype.equivOfCardEq hc)
  have hB : ∀ j, ∃ x : L, T (B' j) = x • B' j := by
    intro j
    have : B' j ∈ t := hb (by simp [B', B])
    exact this
  choose d hd using hB
  refine ⟨Matrix.of fun i j => B' j i, d, ?_, ?_⟩
  · have := (Pi.basisFun L (Fin n)).invertibleToMatrix B'
    have e : (Matrix.of fun i j => B' j i) = (Pi.basisFun L (Fin n)).toMatrix B' := by
      ext i j; simp [Basis.toMatrix_apply]
    rw [e]
    exact isUnit_of_invertible _
  · ext i j
    have := congrFun (hd j) i
    rw [Matrix.toLin'_apply] at this
    simp only [Pi.smul_apply, smul_eq_mul] at this
    rw [Matrix.mul_diagonal, Matrix.of_apply, mul_comm, ← this]
    simp [Matrix.mul_apply, Matrix.mulVec, dotProduct]

theorem ker_prod (T : (Fin n → L) →ₗ[L] (Fin n → L)) (S : Finset L) :
    LinearMap.ker (aeval T (∏ x ∈ S, (X - C x))) ≤ ⨆ x, End.eigenspace T x := by
  classical
  induction S using Finset.induction_on with
  | empty => rw [Finset.prod_empty, map_one]; intro v hv; rw [LinearMap.mem_ker] at hv; rw [show v = 0 from hv]; exact zero_mem _
  | insert a S ha ih =>
    rw [Finset.prod_insert ha, ← sup_ker_aeval_eq_ker_aeval_mul_of_coprime]
    · refine sup_le (le_trans ?_ (le_iSup _ a)) ih
      intro v hv
      rw [LinearMap.mem_ker] at hv
      rw [End.mem_eigenspace_iff]
      simpa [sub_eq_zero, Module.algebraMap_end_apply] using hv
    · refine IsCoprime.prod_right fun x hx => isCoprime_X_sub_C_of_isUnit_sub ?_
      exact (sub_ne_zero.mpr (by rintro rfl; exact ha hx)).isUnit

theorem diag_of_annihilates (S : Finset L) (h : aeval A (∏ x ∈ S, (X - C x)) = 0) : Diagonalizable A := by
  refine diag_of_iSup (eq_top_iff.mpr (le_trans ?_ (ker_prod _ S)))
  have : aeval (Matrix.toLin' A) (∏ x ∈ S, (X - C x)) = 0 := by
    have := congrArg Matrix.toLinAlgEquiv' h
    rw [map_zero, ← AlgEquiv.coe_toAlgHom, ← aeval_algHom_apply] at this
    exact this
  rw [this]; simp

theorem finrank_eigenspace (x : L) : finrank L (End.eigenspace (Matrix.toLin' A) x) = n - (A - x • 1).rank := by
  have h : End.eigenspace (Matrix.toLin' A) x = LinearMap.ker (Matrix.toLin' (A - x • 1)) := by
    rw [End.eigenspace_def]
    congr 1
    rw [map_sub, map_smul, Matrix.toLin'_one]
    rfl
  have := LinearMap.finrank_range_add_finrank_ker (Matrix.toLin' (A - x • 1))
  rw [finrank_fintype_fun_eq_card, Fintype.card_fin] at this
  rw [h, Matrix.rank, ← Matrix.toLin'_apply']
  omega

theorem diag_iff (hs : A.charpoly.Splits) :
    Diagonalizable A ↔ ∀ x, A.charpoly.IsRoot x → n - (A - x • 1).rank = A.charpoly.rootMultiplicity x := by
  classical
  constructor
  · rintro ⟨P, d, hP, h⟩ x -
    obtain ⟨u, rfl⟩ := hP
    have hA : A = u.val * Matrix.diagonal d * u.inv := by
      rw [← h, mul_assoc, u.val_inv, mul_one]
    have hcp : A.charpoly = ∏ i, (X - C (d i)) := by
      rw [hA, show u.inv = u⁻¹.val from rfl, Matrix.coe_units_inv, Matrix.charpoly_units_conj, Matrix.charpoly_diagonal]
    have hr : (A - x • 1).rank = Fintype.card {i // d i - x ≠ 0} := by
      have e : A - x • 1 = u.val * (Matrix.diagonal fun i => d i - x) * u⁻¹.val := by
        have : (Matrix.diagonal fun i => d i - x) = Matrix.diagonal d - x • 1 := by
          ext i j; by_cases hij : i = j
          · subst hij; simp
          · simp [hij, Matrix.one_apply_ne hij]
        rw [this, mul_sub, sub_mul, hA]
        congr 1
        simp
      rw [e, Matrix.rank_mul_eq_left_of_isUnit_det _ _ ((Matrix.isUnit_iff_isUnit_det _).mp u⁻¹.isUnit),
        Matrix.rank_mul_eq_right_of_isUnit_det _ _ ((Matrix.isUnit_iff_isUnit_det _).mp u.isUnit), Matrix.rank_diagonal]
    rw [hr, hcp, ← count_roots, roots_prod _ _ (Finset.prod_ne_zero_iff.mpr fun i _ => X_sub_C_ne_zero _)]
    have h1 : Fintype.card {i // d i - x ≠ 0} = (Finset.univ.filter fun i => ¬ d i = x).card := by
      rw [Fintype.card_subtype]; simp [sub_eq_zero]
    have h2 := Finset.card_filter_add_card_filter_not (s := (Finset.univ : Finset (Fin n))) (fun i => d i = x)
    rw [Finset.card_univ, Fintype.card_fin] at h2
    simp only [roots_X_sub_C, Multiset.bind_singleton]
    rw [Multiset.count_map, h1]
    have h3 : Multiset.card (Multiset.filter (fun a => x = d a) (Finset.univ : Finset (Fin n)).val) = (Finset.univ.filter fun i => d i = x).card := by
      rw [Finset.card_def, Finset.filter_val]; congr 1; ext; simp [eq_comm]
    omega
  · intro h
    apply diag_of_iSup
    set T := Matrix.toLin' A
    let ι := {x // x ∈ A.charpoly.roots.toFinset}
    let E : ι → Submodule L (Fin n → L) := fun x => End.eigenspace T x.1
    have hind : iSupIndep E := (End.eigenspaces_iSupIndep T).comp Subtype.val_injective
    have hinj := hind.dfinsupp_lsum_injective
    have hsum : finrank L (DirectSum ι fun i => E i) = n := by
      rw [finrank_directSum]
      have : ∀ i : ι, finrank L (E i) = A.charpoly.roots.count i.1 := by
        rintro ⟨x, hx⟩
        rw [count_roots, ← h x (isRoot_of_mem_roots (Multiset.mem_toFinset.mp hx))]
        exact finrank_eigenspace x
      rw [Finset.sum_congr rfl fun i _ => this i, Finset.sum_coe_sort A.charpoly.roots.toFinset (fun x => A.charpoly.roots.count x),
        Multiset.toFinset_sum_count_eq, ← hs.natDegree_eq_card_roots, Matrix.charpoly_natDegree_eq_dim, Fintype.card_fin]
    have hsurj : LinearMap.range ((DFinsupp.lsum ℕ) fun i => (E i).subtype) = ⊤ := by
      apply Submodule.eq_top_of_finrank_eq
      have e := LinearMap.finrank_range_of_inj hinj
      rw [e, finrank_fintype_fun_eq_card, Fintype.card_fin]
      exact hsum
    rw [eq_top_iff, ← hsurj, ← Submodule.iSup_eq_range_dfinsupp_lsum]
    exact iSup_le fun i => le_iSup (fun x => End.eigenspace T x) i.1

theorem aeval_semiconj {B P D : Matrix (Fin n) (Fin n) L} (h : B * P = P * D) (g : L[X]) : aeval B g * P = P * aeval D g := by
  induction g using Polynomial.induction_on with
  | C a => simp [Algebra.algebraMap_eq_smul_one]
  | add p q hp hq => rw [map_add, map_add, add_mul, mul_add, hp, hq]
  | monomial k a ih =>
    have hk : ∀ k : ℕ, B ^ k * P = P * D ^ k := by
      intro k
      induction k with
      | zero => simp
      | succ k ih => rw [pow_succ, mul_assoc, h, ← mul_assoc, ih, mul_assoc, ← pow_succ]
    simp [Algebra.algebraMap_eq_smul_one, hk]

theorem aeval_diagonal (d : Fin n → L) (g : L[X]) : aeval (Matrix.diagonal d) g = Matrix.diagonal fun i => eval (d i) g := by
  have h : Matrix.diagonal d = Matrix.diagonalAlgHom L d := rfl
  rw [h, aeval_algHom_apply]
  change Matrix.diagonal (aeval d g) = _
  congr 1
  ext i
  have := aeval_algHom_apply (Pi.evalAlgHom L (fun _ : Fin n => L) i) d g
  simpa [coe_aeval_eq_eval] using this.symm

/-- Diagonalizable over some extension field: then already where the characteristic polynomial splits. -/
theorem diag_ext {K : Type*} [Field K] [PerfectField K] {E : Type*} [Field E] (φ : K →+* L) (ψ : K →+* E) {M : Matrix (Fin n) (Fin n) K}
    (hs : (M.charpoly.map φ).Splits) (h : Diagonalizable (M.map ψ)) : Diagonalizable (M.map φ) := by
  classical
  obtain ⟨P, d, hP, h⟩ := h
  have hc0 : M.charpoly ≠ 0 := (Matrix.charpoly_monic M).ne_zero
  set f := UniqueFactorizationMonoid.radical M.charpoly with hf
  have hsq : Squarefree f := UniqueFactorizationMonoid.squarefree_radical
  have hdvd : f ∣ M.charpoly := UniqueFactorizationMonoid.radical_dvd_self
  have hf0 : f ≠ 0 := hsq.ne_zero
  obtain ⟨u, rfl⟩ := hP
  have hA : M.map ψ = u.val * Matrix.diagonal d * u⁻¹.val := by
    rw [← h, mul_assoc, Units.mul_inv, mul_one]
  have hcp : M.charpoly.map ψ = ∏ i, (X - C (d i)) := by
    rw [← Matrix.charpoly_map]
    rw [hA, Matrix.coe_units_inv, Matrix.charpoly_units_conj, Matrix.charpoly_diagonal]
  have hd : ∀ i, eval (d i) (f.map ψ) = 0 := by
    intro i
    obtain ⟨k, hk⟩ := (UniqueFactorizationMonoid.exists_dvd_radical_self_pow hc0 : ∃ k, M.charpoly ∣ f ^ k)
    have h1 : eval (d i) (M.charpoly.map ψ) = 0 := by
      rw [hcp, eval_prod]
      exact Finset.prod_eq_zero (Finset.mem_univ i) (by simp)
    obtain ⟨g, hg⟩ := hk
    have h2 : eval (d i) ((f ^ k).map ψ) = 0 := by rw [hg, Polynomial.map_mul, eval_mul, h1, zero_mul]
    rw [Polynomial.map_pow, eval_pow] at h2
    exact eq_zero_of_pow_eq_zero h2
  have hE : aeval (M.map ψ) (f.map ψ) = 0 := by
    have h1 := aeval_semiconj h (f.map ψ)
    have h2 : aeval (Matrix.diagonal d) (f.map ψ) = 0 := by
      rw [aeval_diagonal]
      ext i j
      by_cases hij : i = j
      · subst hij; simp [hd]
      · simp [hij]
    rw [h2, mul_zero] at h1
    have := congrArg (· * u⁻¹.val) h1
    simpa [mul_assoc] using this
  have hK : aeval M f = 0 := by
    have e := map_aeval_eq_aeval_map (φ := ψ) (ψ := ψ.mapMatrix (m := Fin n)) (by ext x i j; simp [Matrix.algebraMap_matrix_apply, apply_ite ψ]) f M
    rw [show ψ.mapMatrix M = M.map ψ from rfl, hE] at e
    ext i j
    have := congrFun (congrFun e i) j
    rw [RingHom.mapMatrix_apply, Matrix.map_apply] at this
    simpa using this
  have hL : aeval (M.map φ) (f.map φ) = 0 := by
    have e := map_aeval_eq_aeval_map (φ := φ) (ψ := φ.mapMatrix (m := Fin n)) (by ext x i j; simp [Matrix.algebraMap_matrix_apply, apply_ite φ]) f M
    rw [show φ.mapMatrix M = M.map φ from rfl, hK, map_zero] at e
    exact e.symm
  have hm0 : M.charpoly.map φ ≠ 0 := (Polynomial.map_ne_zero_iff φ.injective).mpr hc0
  have hfs : (f.map φ).Splits := hs.of_dvd hm0 (Polynomial.map_dvd φ hdvd)
  have hsep : (f.map φ).Separable := (PerfectField.separable_iff_squarefree.mpr hsq).map
  have hnd : (f.map φ).roots.Nodup := nodup_roots hsep
  refine diag_of_annihilates (f.map φ).roots.toFinset ?_
  have e := hfs.eq_prod_roots
  have e2 : ((f.map φ).roots.map fun x => X - C x).prod = ∏ x ∈ (f.map φ).roots.toFinset, (X - C x) := by
    rw [Finset.prod, Multiset.toFinset_val, hnd.dedup]
  rw [e2] at e
  rw [e, map_mul, aeval_C] at hL
  have hlc : (f.map φ).leadingCoeff ≠ 0 := leadingCoeff_ne_zero.mpr ((Polynomial.map_ne_zero_iff φ.injective).mpr hf0)
  rw [← Algebra.smul_def] at hL
  exact (smul_eq_zero.mp hL).resolve_left hlc

section
variable {K L : Type} [Field K] [Finite K] [Field L] [Finite L]

theorem splits_iff_dvd (φ : K →+* L) {g : K[X]} (hg : Irreducible g) {r : ℕ} (hc : Nat.card L = Nat.card K ^ r) :
    (g.map φ).Splits ↔ g.natDegree ∣ r := by
  let _ := φ.toAlgebra
  have : Fact (Irreducible g) := ⟨hg⟩
  have : Module.Finite K L := Module.Finite.of_finite
  have : Module.Finite K (AdjoinRoot g) := (AdjoinRoot.powerBasis hg.ne_zero).finite
  have : Finite (AdjoinRoot g) := Module.finite_of_finite K
  have h1 : finrank K (AdjoinRoot g) = g.natDegree := by
    rw [(AdjoinRoot.powerBasis hg.ne_zero).finrank, AdjoinRoot.powerBasis_dim]
  have h2 : finrank K L = r := by
    have := Module.natCard_eq_pow_finrank (K := K) (V := L)
    rw [hc] at this
    exact (Nat.pow_right_injective (by have := Finite.one_lt_card (α := K); omega) this).symm
  rw [← h1, ← h2, ← FiniteField.nonempty_algHom_iff_finrank_dvd]
  constructor
  · intro h
    obtain ⟨x, hx⟩ := h.exists_eval_eq_zero (by
      rw [degree_map]; exact (degree_pos_of_irreducible hg).ne')
    exact ⟨AdjoinRoot.liftAlgHom g (Algebra.ofId K L) x (by rwa [eval_map] at hx)⟩
  · rintro ⟨ψ⟩
    set x := ψ (AdjoinRoot.root g)
    have hx : aeval x g = 0 := by
      rw [aeval_algHom_apply, AdjoinRoot.aeval_eq, AdjoinRoot.mk_self, map_zero]
    have hn : ((minpoly K x).map (algebraMap K L)).Splits := Normal.splits inferInstance x
    rw [← minpoly.eq_of_irreducible hg hx, Polynomial.map_mul, map_C]  at hn
    have : g.map φ = g.map (algebraMap K L) := rfl
    rw [this]
    exact (splits_mul (by simp [hg.ne_zero]) (by simp [hg.ne_zero])).mp hn |>.1
end

end Diag
end Spffl
