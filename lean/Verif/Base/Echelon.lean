/-
Row echelon forms of matrices over a commutative ring, mostly a field: definitions independent of the code, and the
facts about them that the elimination proofs need.
-/
import Mathlib.LinearAlgebra.Matrix.NonsingularInverse
import Mathlib.LinearAlgebra.Matrix.Rank
import Mathlib.LinearAlgebra.Matrix.Block
import Mathlib.Tactic.Ring
import Mathlib.Tactic.LinearCombination
import Mathlib.LinearAlgebra.Matrix.ToLin

namespace Spffl

variable {F : Type} [CommRing F] {m n : ℕ}

/-- `B` is obtained from `A` by invertible row operations of determinant `1 / s`. -/
def RowEq (A B : Matrix (Fin m) (Fin n) F) (s : F) : Prop :=
  ∃ P : Matrix (Fin m) (Fin m) F, s * P.det = 1 ∧ B = P * A

namespace RowEq
variable {A B : Matrix (Fin m) (Fin n) F} {s : F}

theorem refl (A : Matrix (Fin m) (Fin n) F) : RowEq A A 1 := ⟨1, by simp, by simp⟩

theorem scale (h : RowEq A B s) (i : Fin m) {c d : F} (hc : d * c = 1) :
    RowEq A (B.updateRow i (c • B i)) (s * d) := by
  obtain ⟨P, hP, hB⟩ := h
  refine ⟨P.updateRow i (c • P i), ?_, ?_⟩
  · rw [Matrix.det_updateRow_smul, Matrix.updateRow_eq_self]
    linear_combination hc * s * P.det + hP
  · ext a b
    by_cases ha : a = i
    · subst ha; rw [hB]; simp [Matrix.mul_apply, Finset.mul_sum, mul_assoc]
    · rw [Matrix.updateRow_ne ha, hB]
      simp [Matrix.mul_apply, Matrix.updateRow_ne ha]

theorem addRow (h : RowEq A B s) {i k : Fin m} (hik : i ≠ k) (c : F) :
    RowEq A (B.updateRow i (B i + c • B k)) s := by
  obtain ⟨P, hP, hB⟩ := h
  refine ⟨P.updateRow i (P i + c • P k), by rw [Matrix.det_updateRow_add_smul_self _ hik]; exact hP, ?_⟩
  ext a b
  by_cases ha : a = i
  · subst ha; rw [hB]; simp [Matrix.mul_apply, Finset.mul_sum, mul_assoc, add_mul, Finset.sum_add_distrib]
  · rw [Matrix.updateRow_ne ha, hB]
    simp [Matrix.mul_apply, Matrix.updateRow_ne ha]

theorem swap (h : RowEq A B s) {i k : Fin m} (hik : i ≠ k) :
    RowEq A (B.submatrix (Equiv.swap i k) id) (s * (0 - 1)) := by
  obtain ⟨P, hP, hB⟩ := h
  refine ⟨P.submatrix (Equiv.swap i k) id, ?_, ?_⟩
  · rw [Matrix.det_permute, Equiv.Perm.sign_swap hik]
    push_cast
    linear_combination hP
  · rw [hB]; ext a b; simp [Matrix.mul_apply]

theorem unit (h : RowEq A B s) : ∃ P : Matrix (Fin m) (Fin m) F, IsUnit P ∧ B = P * A := by
  obtain ⟨P, hP, hB⟩ := h
  exact ⟨P, (Matrix.isUnit_iff_isUnit_det P).mpr (IsUnit.of_mul_eq_one s (by rw [mul_comm]; exact hP)), hB⟩

end RowEq

/-- `B` and `A` are row equivalent: same row space, same kernel. -/
def RowEquiv (A B : Matrix (Fin m) (Fin n) F) : Prop :=
  ∃ P : Matrix (Fin m) (Fin m) F, IsUnit P ∧ B = P * A

theorem RowEquiv.rank {A B : Matrix (Fin m) (Fin n) F} (h : RowEquiv A B) : B.rank = A.rank := by
  obtain ⟨P, hP, rfl⟩ := h
  exact Matrix.rank_mul_eq_right_of_isUnit_det _ _ ((Matrix.isUnit_iff_isUnit_det P).mp hP)

theorem RowEquiv.ker {A B : Matrix (Fin m) (Fin n) F} (h : RowEquiv A B) (x : Fin n → F) :
    B.mulVec x = 0 ↔ A.mulVec x = 0 := by
  obtain ⟨P, hP, rfl⟩ := h
  rw [← Matrix.mulVec_mulVec]
  constructor
  · intro h
    exact Matrix.mulVec_injective_of_isUnit hP (by rw [h, Matrix.mulVec_zero])
  · intro h; rw [h, Matrix.mulVec_zero]

theorem RowEquiv.rowSpace {A B : Matrix (Fin m) (Fin n) F} (h : RowEquiv A B) :
    Submodule.span F (Set.range B.row) = Submodule.span F (Set.range A.row) := by
  have key : ∀ {C D : Matrix (Fin m) (Fin n) F} {P : Matrix (Fin m) (Fin m) F}, D = P * C →
      Submodule.span F (Set.range D.row) ≤ Submodule.span F (Set.range C.row) := by
    intro C D P h
    rw [Submodule.span_le]
    rintro _ ⟨i, rfl⟩
    have : D.row i = ∑ k, P i k • C.row k := by
      subst h; ext j; simp [Matrix.mul_apply]
    rw [this]
    exact Submodule.sum_mem _ fun k _ => Submodule.smul_mem _ _ (Submodule.subset_span ⟨k, rfl⟩)
  obtain ⟨P, hP, hB⟩ := h
  refine le_antisymm (key hB) (key (P := P⁻¹) ?_)
  rw [hB, ← Matrix.mul_assoc, Matrix.nonsing_inv_mul _ ((Matrix.isUnit_iff_isUnit_det P).mp hP), Matrix.one_mul]

/-- Row echelon form with `r` non-zero rows whose leading entries are 1, in columns `p 0 < p 1 < ...`. -/
structure IsEchelon (B : Matrix (Fin m) (Fin n) F) (r : ℕ) (p : Fin r → Fin n) : Prop where
  le : r ≤ m
  mono : StrictMono p
  zero : ∀ i : Fin m, r ≤ i → B i = 0
  one : ∀ i : Fin r, B ⟨i, i.2.trans_le le⟩ (p i) = 1
  left : ∀ (i : Fin r) (j : Fin n), j < p i → B ⟨i, i.2.trans_le le⟩ j = 0

/-- Reduced row echelon form: the leading columns are zero elsewhere. -/
structure IsReduced (B : Matrix (Fin m) (Fin n) F) (r : ℕ) (p : Fin r → Fin n) : Prop extends IsEchelon B r p where
  clear : ∀ (i : Fin m) (k : Fin r), (i : ℕ) ≠ k → B i (p k) = 0

namespace IsEchelon
variable {B : Matrix (Fin m) (Fin n) F} {r : ℕ} {p : Fin r → Fin n}

theorem row_ne_zero [Nontrivial F] (h : IsEchelon B r p) {i : Fin m} (hi : (i : ℕ) < r) : B i ≠ 0 := by
  intro h0
  have := h.one ⟨i, hi⟩
  simp [h0] at this

theorem row_eq_zero [Nontrivial F] (h : IsEchelon B r p) {i : Fin m} : B i = 0 ↔ r ≤ i := by
  constructor
  · intro h0; by_contra hlt; exact h.row_ne_zero (by omega) h0
  · exact h.zero i

theorem p_ge (h : IsEchelon B r p) (i : Fin r) : (i : ℕ) ≤ p i := by
  obtain ⟨i, hi⟩ := i
  induction i with
  | zero => simp
  | succ i ih =>
    have h1 := ih (by omega)
    have h2 : p ⟨i, by omega⟩ < p ⟨i + 1, hi⟩ := h.mono (by simp)
    have h3 : (p ⟨i, by omega⟩ : ℕ) < p ⟨i + 1, hi⟩ := h2
    simp at h1 ⊢; omega

theorem le_n (h : IsEchelon B r p) : r ≤ n := by
  rcases Nat.eq_zero_or_pos r with h0 | h0
  · omega
  · have := h.p_ge ⟨r - 1, by omega⟩
    have h2 := (p ⟨r - 1, by omega⟩).2
    simp at this; omega

/-- upper triangular when square -/
theorem det_eq {B : Matrix (Fin n) (Fin n) F} {r : ℕ} {p : Fin r → Fin n} (h : IsEchelon B r p) : B.det = ∏ i, B i i := by
  apply Matrix.det_of_upperTriangular
  intro i j hij
  by_cases hi : (i : ℕ) < r
  · have h1 := h.p_ge ⟨i, hi⟩
    have hij' : (j : ℕ) < i := hij
    exact h.left ⟨i, hi⟩ j (by show (j : ℕ) < p ⟨i, hi⟩; simp at h1; omega)
  · rw [h.zero i (by omega)]; rfl

theorem linearIndependent (h : IsEchelon B r p) :
    LinearIndependent F (fun i : Fin r => B ⟨i, i.2.trans_le h.le⟩) := by
  refine LinearIndependent.of_comp (LinearMap.funLeft F F p) ?_
  have : (fun i : Fin r => LinearMap.funLeft F F p (B ⟨i, i.2.trans_le h.le⟩)) =
      fun i => (Matrix.of fun (i k : Fin r) => B ⟨i, i.2.trans_le h.le⟩ (p k)) i := rfl
  show LinearIndependent F (fun i : Fin r => LinearMap.funLeft F F p (B ⟨i, i.2.trans_le h.le⟩))
  rw [this]
  apply Matrix.linearIndependent_rows_of_isUnit
  rw [Matrix.isUnit_iff_isUnit_det, Matrix.det_of_upperTriangular]
  · simp [h.one]
  · intro i k hik
    exact h.left i (p k) (h.mono hik)

theorem rank_eq {F : Type} [Field F] {B : Matrix (Fin m) (Fin n) F} (h : IsEchelon B r p) : B.rank = r := by
  rw [Matrix.rank_eq_finrank_span_row]
  have : Submodule.span F (Set.range B.row) = Submodule.span F (Set.range fun i : Fin r => B ⟨i, i.2.trans_le h.le⟩) := by
    apply le_antisymm
    · rw [Submodule.span_le]
      rintro _ ⟨i, rfl⟩
      by_cases hi : (i : ℕ) < r
      · exact Submodule.subset_span ⟨⟨i, hi⟩, rfl⟩
      · have : B.row i = 0 := h.zero i (by omega)
        rw [this]; exact Submodule.zero_mem _
    · rw [Submodule.span_le]
      rintro _ ⟨i, rfl⟩
      exact Submodule.subset_span ⟨_, rfl⟩
  rw [this, finrank_span_eq_card h.linearIndependent, Fintype.card_fin]

end IsEchelon
end Spffl

namespace Spffl
variable {F : Type} [Field F] {m n : ℕ}

/-- The free columns `e` are the non-pivot columns. -/
structure FreeCols {r d : ℕ} (p : Fin r → Fin n) (e : Fin d → Fin n) : Prop where
  inj : Function.Injective e
  disj : ∀ q t, p q ≠ e t
  cover : ∀ c, (∃ q, p q = c) ∨ ∃ t, e t = c

theorem FreeCols.sum {r d : ℕ} {p : Fin r → Fin n} {e : Fin d → Fin n} (h : FreeCols p e) (hp : Function.Injective p) (f : Fin n → F) :
    ∑ c, f c = ∑ q, f (p q) + ∑ t, f (e t) := by
  have hb : Function.Bijective (Sum.elim p e) := by
    constructor
    · rintro (a | a) (b | b) hab
      · exact congrArg _ (hp hab)
      · exact absurd hab (h.disj a b)
      · exact absurd hab.symm (h.disj b a)
      · exact congrArg _ (h.inj hab)
    · intro c
      rcases h.cover c with ⟨q, hq⟩ | ⟨t, ht⟩
      · exact ⟨Sum.inl q, hq⟩
      · exact ⟨Sum.inr t, ht⟩
  rw [← (Equiv.ofBijective _ hb).sum_comp]
  simp [Fintype.sum_sum_type]

/-- Rows of `K` read off from a reduced row echelon form. -/
structure KerRows {r d : ℕ} (B : Matrix (Fin m) (Fin n) F) (hr : r ≤ m) (p : Fin r → Fin n) (e : Fin d → Fin n)
    (K : Matrix (Fin d) (Fin n) F) : Prop where
  free : ∀ i t, K i (e t) = if i = t then 1 else 0
  dep : ∀ i (q : Fin r), K i (p q) = - B ⟨q, q.2.trans_le hr⟩ (e i)

namespace KerRows
variable {r d : ℕ} {B : Matrix (Fin m) (Fin n) F} {p : Fin r → Fin n} {e : Fin d → Fin n} {K : Matrix (Fin d) (Fin n) F}

theorem row_sum (h : IsReduced B r p) (hf : FreeCols p e) (x : Fin n → F) (q : Fin r) :
    B.mulVec x ⟨q, q.2.trans_le h.le⟩ = x (p q) + ∑ t, B ⟨q, q.2.trans_le h.le⟩ (e t) * x (e t) := by
  rw [Matrix.mulVec, dotProduct, hf.sum h.mono.injective]
  congr 1
  rw [Finset.sum_eq_single q]
  · rw [h.one, one_mul]
  · intro b _ hb
    rw [h.clear _ b (by simpa [Fin.ext_iff] using Ne.symm hb), zero_mul]
  · simp

theorem mem_ker (h : IsReduced B r p) (hf : FreeCols p e) (hK : KerRows B h.le p e K) (i : Fin d) : B.mulVec (K i) = 0 := by
  funext l
  by_cases hl : (l : ℕ) < r
  · have := row_sum h hf (K i) ⟨l, hl⟩
    rw [show (⟨(⟨l, hl⟩ : Fin r), _⟩ : Fin m) = l from rfl] at this
    rw [this, hK.dep]
    simp [hK.free]
  · simp [Matrix.mulVec, h.zero l (by omega)]

theorem indep (hK : ∀ i t, K i (e t) = if i = t then 1 else 0) : LinearIndependent F (fun i => K i) := by
  refine LinearIndependent.of_comp (LinearMap.funLeft F F e) ?_
  have : (⇑(LinearMap.funLeft F F e) ∘ fun i => K i) = fun i => (1 : Matrix (Fin d) (Fin d) F) i := by
    funext i t; simp [LinearMap.funLeft_apply, hK, Matrix.one_apply]
  rw [this]
  exact Matrix.linearIndependent_rows_of_isUnit isUnit_one

theorem span_eq (h : IsReduced B r p) (hf : FreeCols p e) (hK : KerRows B h.le p e K) :
    Submodule.span F (Set.range fun i => K i) = LinearMap.ker B.mulVecLin := by
  apply le_antisymm
  · rw [Submodule.span_le]
    rintro _ ⟨i, rfl⟩
    simpa using hK.mem_ker h hf i
  · intro x hx
    have hx : B.mulVec x = 0 := by simpa using hx
    have : x = ∑ t, x (e t) • K t := by
      funext c
      rcases hf.cover c with ⟨q, rfl⟩ | ⟨t, rfl⟩
      · have h1 := row_sum h hf x q
        rw [hx] at h1
        simp only [Finset.sum_apply, Pi.smul_apply, smul_eq_mul, hK.dep]
        have h2 : x (p q) = - ∑ t, B ⟨q, q.2.trans_le h.le⟩ (e t) * x (e t) := by
          simp only [Pi.zero_apply] at h1; linear_combination -h1
        rw [h2, ← Finset.sum_neg_distrib]
        exact Finset.sum_congr rfl fun t _ => by ring
      · simp [hK.free]
    rw [this]
    exact Submodule.sum_mem _ fun t _ => Submodule.smul_mem _ _ (Submodule.subset_span ⟨t, rfl⟩)

end KerRows
end Spffl
