import Verif.Base.Echelon

/-!
# The reduced row echelon form of a row space is unique
-/

namespace Spffl
variable {F : Type} [Field F] {m m' n : ℕ}

/-- A combination of the rows of a reduced row echelon form has its coefficients in the leading columns. -/
theorem IsReduced.comb {B : Matrix (Fin m) (Fin n) F} {r : ℕ} {p : Fin r → Fin n} (h : IsReduced B r p) {x : Fin n → F}
    (hx : x ∈ Submodule.span F (Set.range B.row)) : x = ∑ q : Fin r, x (p q) • B ⟨q, q.2.trans_le h.le⟩ := by
  induction hx using Submodule.span_induction with
  | mem x hx =>
    obtain ⟨i, rfl⟩ := hx
    show B i = ∑ q : Fin r, B i (p q) • B ⟨q, q.2.trans_le h.le⟩
    by_cases hi : (i : ℕ) < r
    · rw [Finset.sum_eq_single ⟨i, hi⟩]
      · rw [h.one ⟨i, hi⟩, one_smul]
      · intro q _ hq
        rw [h.clear i q (fun e => hq (Fin.ext e.symm)), zero_smul]
      · simp
    · rw [h.zero i (by omega)]
      simp
  | zero => simp
  | add x y _ _ hx hy =>
    conv_lhs => rw [hx, hy]
    rw [← Finset.sum_add_distrib]
    exact Finset.sum_congr rfl fun q _ => by rw [Pi.add_apply, add_smul]
  | smul a x _ hx =>
    conv_lhs => rw [hx]
    rw [Finset.smul_sum]
    exact Finset.sum_congr rfl fun q _ => by rw [Pi.smul_apply, smul_eq_mul, mul_smul]

theorem IsReduced.pivots {B : Matrix (Fin m) (Fin n) F} {B' : Matrix (Fin m') (Fin n) F} {r r' : ℕ} {p : Fin r → Fin n} {p' : Fin r' → Fin n}
    (h : IsReduced B r p) (h' : IsEchelon B' r' p') (hs : Submodule.span F (Set.range B'.row) ≤ Submodule.span F (Set.range B.row)) :
    Set.range p' ⊆ Set.range p := by
  rintro _ ⟨q, rfl⟩
  by_contra hc
  have := congrFun (h.comb (hs (Submodule.subset_span ⟨⟨q, q.2.trans_le h'.le⟩, rfl⟩))) (p' q)
  rw [show B'.row ⟨q, q.2.trans_le h'.le⟩ (p' q) = 1 from h'.one q, Finset.sum_apply, Finset.sum_eq_zero] at this
  · exact one_ne_zero this
  · intro k _
    rw [Pi.smul_apply, smul_eq_mul]
    rcases lt_trichotomy (p k) (p' q) with hk | hk | hk
    · rw [show B'.row ⟨q, q.2.trans_le h'.le⟩ (p k) = 0 from h'.left q _ hk, zero_mul]
    · exact absurd ⟨k, hk⟩ hc
    · rw [h.left k _ hk, mul_zero]

/-- Two reduced row echelon forms of one row space have the same leading columns and the same rows. -/
theorem IsReduced.unique {B : Matrix (Fin m) (Fin n) F} {B' : Matrix (Fin m') (Fin n) F} {r r' : ℕ} {p : Fin r → Fin n} {p' : Fin r' → Fin n}
    (h : IsReduced B r p) (h' : IsReduced B' r' p') (hs : Submodule.span F (Set.range B'.row) = Submodule.span F (Set.range B.row)) :
    r = r' ∧ ∀ i (hi : i < m) (hi' : i < m'), B ⟨i, hi⟩ = B' ⟨i, hi'⟩ := by
  have hr : Set.range p = Set.range p' := le_antisymm (h'.pivots h.toIsEchelon hs.ge) (h.pivots h'.toIsEchelon hs.le)
  have hc := congrArg Set.ncard hr
  rw [Set.ncard_range_of_injective h.mono.injective, Set.ncard_range_of_injective h'.mono.injective, Nat.card_eq_fintype_card,
    Nat.card_eq_fintype_card, Fintype.card_fin, Fintype.card_fin] at hc
  subst hc
  have hp : p = p' := (StrictMono.range_inj h.mono h'.mono).1 hr
  subst hp
  refine ⟨rfl, fun i hi hi' => ?_⟩
  by_cases hir : i < r
  · have := h.comb (hs.le (Submodule.subset_span ⟨⟨i, hi'⟩, rfl⟩))
    rw [Finset.sum_eq_single ⟨i, hir⟩] at this
    · rw [show B'.row ⟨i, hi'⟩ (p ⟨i, hir⟩) = 1 from h'.one ⟨i, hir⟩, one_smul] at this
      exact this.symm
    · intro q _ hq
      rw [show B'.row ⟨i, hi'⟩ (p q) = 0 from h'.clear _ q fun e => hq (Fin.ext e.symm), zero_smul]
    · simp
  · rw [h.zero _ (by simpa using hir), h'.zero _ (by simpa using hir)]

end Spffl
