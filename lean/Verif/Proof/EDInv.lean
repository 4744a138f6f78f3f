/-
Row echelon form and inverse by Euclidean-domain elimination (tmatrix.h:1554-1604).
-/
import Verif.Proof.EDetInst
import Verif.Proof.MatInverse

namespace Spffl
open Res

/-- echelon form whose pivot columns are zero above the pivots too -/
structure IsRed {R : Type} [CommRing R] {m n : ℕ} (B : Matrix (Fin m) (Fin n) R) (r : ℕ) (p : ℕ → ℕ) : Prop extends IsEch B r p where
  above : ∀ (i : Fin m) (j : Fin n) q, (i : ℕ) < q → q < r → (j : ℕ) = p q → B i j = 0

section
variable {U : Prop} {α R : Type} [CommRing R] [IsDomain R] {O : EDOps α} {rep wrep : α → R → Prop} {m n : ℕ}
variable {K : Type} [Field K] [Algebra R K] [IsFractionRing R K]

theorem RowEquiv.scaleDiv {M M' : Matrix (Fin m) (Fin n) R} {i : Fin m} (h : DivRow M i M') : RowEquiv (fr K M) (fr K M') := by
  obtain ⟨g, x, hg, hx, rfl, _⟩ := h
  have := ((RowEq.refl (fr K M)).scale i (c := (algebraMap R K g)⁻¹) (d := algebraMap R K g) (mul_inv_cancel₀ (am_ne K hg))).unit
  have e : (fun j => algebraMap R K (x j)) = (algebraMap R K g)⁻¹ • (fr K M) i := by
    funext j
    have e : (fr K M) i j = algebraMap R K g * algebraMap R K (x j) := by
      simp only [Matrix.map_apply]; rw [hx]; simp
    simp only [Pi.smul_apply, smul_eq_mul]
    rw [e, inv_mul_cancel_left₀ (am_ne K hg)]
  rw [fr_updateRow, e]
  exact this

theorem RowEquiv.elimRow (M : Matrix (Fin m) (Fin n) R) {i k : Fin m} (hik : i ≠ k) {c : R} (hc : c ≠ 0) (d : R) :
    RowEquiv (fr K M) (fr K (M.updateRow i (c • M i - d • M k))) := by
  have := ((RowEq.refl (fr K M)).elim hik (am_ne K hc) (algebraMap R K d)).unit
  have e : (fun j => algebraMap R K ((c • M i - d • M k) j)) = algebraMap R K c • (fr K M) i - algebraMap R K d • (fr K M) k := by
    funext j
    simp [Algebra.smul_def]
  rw [fr_updateRow, e]
  exact this

/-- one row operation of the second phase keeps the echelon form -/
theorem IsEch.clear {M M' : Matrix (Fin m) (Fin n) R} {rk : ℕ} {p : ℕ → ℕ} (he : IsEch M rk p) {i k : Fin m} (hik : i < k) (hk : (k : ℕ) < rk)
    {c d : R} (hc : c ≠ 0) (hd : DivRow (M.updateRow i (c • M i - d • M k)) i M') : IsEch M' rk p := by
  have hi : (i : ℕ) < rk := lt_trans hik hk
  have hkeep : ∀ a : Fin m, a ≠ i → M' a = M a := fun a ha => by rw [hd.ne ha, Matrix.updateRow_ne ha]
  have hz : ∀ j, M' i j = 0 ↔ c * M i j - d * M k j = 0 := fun j => by rw [hd.zero_iff]; simp
  refine ⟨he.le, he.mono, he.lt, fun a ha => ?_, fun a j ha hj => ?_, fun a j ha hj => ?_, fun a ha => ?_⟩
  · rw [hkeep a (by rintro rfl; omega)]; exact he.zero a ha
  · by_cases hai : a = i
    · subst hai
      rw [Ne, hz]
      have : M k j = 0 := he.left k j hk (by rw [hj]; exact he.mono _ _ hik hk)
      rw [this, mul_zero, sub_zero]
      exact mul_ne_zero hc (he.lead a j ha hj)
    · rw [hkeep a hai]; exact he.lead a j ha hj
  · by_cases hai : a = i
    · subst hai
      rw [hz]
      rw [he.left a j ha hj, he.left k j hk (hj.trans (he.mono _ _ hik hk))]; simp
    · rw [hkeep a hai]; exact he.left a j ha hj
  · by_cases hai : a = i
    · subst hai; exact hd.prim
    · rw [hkeep a hai]; exact he.prim a ha

theorem edClearRow_sat (H : EDRef U O rep wrep) {zero : α} (hz : rep zero 0) {row : ℕ} (hr : row < m) {rk : ℕ} {p : ℕ → ℕ} :
    ∀ k (A : TMat α) (M : Matrix (Fin m) (Fin n) R) row2, MRep rep A M → IsEch M rk p → row < row2 → k + row2 = m →
      (∀ (j : Fin n) q, row < q → q < row2 → q < rk → (j : ℕ) = p q → M ⟨row, hr⟩ j = 0) →
      (TMat.edClearRow O zero row k A row2).Sat U (fun B => ∃ M' : Matrix (Fin m) (Fin n) R, MRep rep B M' ∧ IsEch M' rk p ∧
        RowEquiv (fr K M) (fr K M') ∧ (∀ i : Fin m, (i : ℕ) ≠ row → M' i = M i) ∧
        ∀ (j : Fin n) q, row < q → q < rk → (j : ℕ) = p q → M' ⟨row, hr⟩ j = 0)
  | 0, A, M, row2, hA, he, hlt, hk, hcl => by
    unfold TMat.edClearRow
    rw [Sat_ok]
    exact ⟨M, hA, he, (RowEq.refl _).unit, fun _ _ => rfl, fun j q h1 h2 h3 => hcl j q h1 (by have := he.le; omega) h2 h3⟩
  | k + 1, A, M, row2, hA, he, hlt, hk, hcl => by
    unfold TMat.edClearRow
    have hr2 : row2 < m := by omega
    refine (rd_sat (hA.rowRep hr2)).bind fun r2 hr2v => ?_
    refine (find_leader_sat H.eqRef hr2v hz).bind fun l hl => ?_
    cases l with
    | none =>
      simp only [Sat_ok]
      have hge : rk ≤ row2 := by
        by_contra hlt'
        have h1 : row2 < rk := by omega
        exact he.lead ⟨row2, hr2⟩ ⟨p row2, he.lt _ h1⟩ h1 rfl (by rw [hl]; rfl)
      exact ⟨M, hA, he, (RowEq.refl _).unit, fun _ _ => rfl, fun j q h1 h2 h3 => hcl j q h1 (by omega) h2 h3⟩
    | some pos =>
      obtain ⟨hpn, hp1, hp2⟩ := hl
      have hlt2 : row2 < rk := by
        by_contra hge
        exact hp1 (by rw [he.zero ⟨row2, hr2⟩ (by simp; omega)]; rfl)
      have hpos : pos = p row2 := by
        rcases lt_trichotomy pos (p row2) with h | h | h
        · exact absurd (he.left ⟨row2, hr2⟩ ⟨pos, hpn⟩ hlt2 h) hp1
        · exact h
        · exact absurd (hp2 ⟨p row2, he.lt _ hlt2⟩ h) (he.lead ⟨row2, hr2⟩ _ hlt2 rfl)
      subst hpos
      have hik : (⟨row, hr⟩ : Fin m) < ⟨row2, hr2⟩ := hlt
      refine (get_sat (hA.at hr2 hpn)).bind fun lead hlead => ?_
      refine (get_sat (hA.at hr hpn)).bind fun cv hcv => ?_
      refine (H.eq hcv hz).bind fun e he0 => ?_
      by_cases hcz : M ⟨row, hr⟩ ⟨p row2, hpn⟩ = 0
      · rw [if_pos (he0.mpr hcz)]
        refine edClearRow_sat H hz hr k A M (row2 + 1) hA he (by omega) (by omega) fun j q h1 h2 h3 h4 => ?_
        by_cases hq : q = row2
        · subst hq
          have : j = ⟨p q, hpn⟩ := Fin.ext h4
          rw [this]; exact hcz
        · exact hcl j q h1 (by omega) h3 h4
      · rw [if_neg (by rw [he0]; exact hcz)]
        refine (setRow_sat (x := M ⟨row2, hr2⟩ ⟨p row2, hpn⟩ • M ⟨row, hr⟩ - M ⟨row, hr⟩ ⟨p row2, hpn⟩ • M ⟨row2, hr2⟩) hA hr ?_).bind fun B hB => ?_
        · exact (rd_sat (hA.rowRep hr)).bind fun v hv => accumW_sat H hv hr2v hlead hcv
        set M1 := M.updateRow ⟨row, hr⟩ (M ⟨row2, hr2⟩ ⟨p row2, hpn⟩ • M ⟨row, hr⟩ - M ⟨row, hr⟩ ⟨p row2, hpn⟩ • M ⟨row2, hr2⟩) with hM1
        refine (rd_sat (hB.rowRep hr)).bind fun v hv => ?_
        refine (vgcd_sat H (by omega) hv).bind fun g ⟨g', hg, h1, h2⟩ => ?_
        refine (neq_sat H.eqRef hg hz).bind fun d hd => ?_
        have hn0 : M1 ⟨row, hr⟩ ⟨p row, he.lt _ (by omega)⟩ ≠ 0 := by
          rw [hM1, Matrix.updateRow_self]
          have e1 : M ⟨row2, hr2⟩ ⟨p row, he.lt _ (by omega)⟩ = 0 := he.left _ _ hlt2 (he.mono _ _ hlt hlt2)
          simp only [Pi.sub_apply, Pi.smul_apply, smul_eq_mul, e1, mul_zero, sub_zero]
          exact mul_ne_zero hp1 (he.lead _ _ (show row < rk by omega) rfl)
        have hg0 : g' ≠ 0 := by
          rintro rfl
          exact hn0 (zero_dvd_iff.mp (h1 _))
        rw [if_pos (hd.mpr hg0)]
        choose qq hq using h1
        have hrow : M1 ⟨row, hr⟩ = g' • qq := funext fun j => by rw [hq j]; rfl
        refine (setRow_sat (x := qq) hB hr (div_by_sat H (by rw [← hrow]; exact hv) hg hg0)).bind fun C hC => ?_
        have hdiv : DivRow M1 ⟨row, hr⟩ (M1.updateRow ⟨row, hr⟩ qq) := by
          refine ⟨g', qq, hg0, hrow, rfl, prim_of_gcd hg0 fun d hd => h2 d fun j => ?_⟩
          rw [hrow]; exact hd j
        have hech := he.clear hik hlt2 hp1 hdiv
        have hkeep : ∀ i : Fin m, (i : ℕ) ≠ row → (M1.updateRow ⟨row, hr⟩ qq) i = M i := fun i hi => by
          have hi' : i ≠ ⟨row, hr⟩ := by simpa [Fin.ext_iff] using hi
          rw [hdiv.ne hi', hM1, Matrix.updateRow_ne hi']
        refine (edClearRow_sat H hz hr k C _ (row2 + 1) hC hech (by omega) (by omega) fun j q h1 h2 h3 h4 => ?_).mono
          fun D ⟨M', a1, a2, a3, a4, a5⟩ => ⟨M', a1, a2,
            ((RowEquiv.elimRow M (ne_of_lt hik) hp1 _).trans (RowEquiv.scaleDiv hdiv)).trans a3, fun i hi => (a4 i hi).trans (hkeep i hi), a5⟩
        rw [hdiv.zero_iff, hM1, Matrix.updateRow_self]
        simp only [Pi.sub_apply, Pi.smul_apply, smul_eq_mul]
        by_cases hq : q = row2
        · subst hq
          have : j = ⟨p q, hpn⟩ := Fin.ext h4
          rw [this]; ring
        · rw [hcl j q h1 (by omega) h3 h4, he.left ⟨row2, hr2⟩ j hlt2 (by rw [h4]; exact he.mono q row2 (by omega) hlt2)]; simp

/-- Row echelon form of a non-zero matrix. -/
theorem ed_row_echelon_sat (K : Type) [Field K] [Algebra R K] [IsFractionRing R K] (H : EDRef U O rep wrep) {A : TMat α}
    {M : Matrix (Fin m) (Fin n) R} (hm : 0 < m) (hn : 0 < n) (hA : MRep rep A M) (hM : M ≠ 0) :
    (TMat.ed_row_echelon_form O A).Sat U (fun B => ∃ M' : Matrix (Fin m) (Fin n) R, MRep rep B M' ∧ RowEquiv (fr K M) (fr K M') ∧
      ∃ rk p, IsRed M' rk p) := by
  unfold TMat.ed_row_echelon_form TMat.ed_row_reduce_below
  simp only [bind_assoc, ok_bind]
  refine (ed_rrs_sat K H hm hn hA hM _ _).bind fun r ⟨M1, ⟨hB, x, y, hx, hy, hx0, hy0, hR⟩, rk, p, he⟩ => ?_
  refine (get_sat (hB.at hm hn)).bind fun a ha => ?_
  refine (H.sub (H.weak ha) (H.weak ha)).bind fun z hz => ?_
  rw [sub_self] at hz
  rw [hB.shape.nr]
  refine (forUp_sat (fun row (B : TMat α) => ∃ M' : Matrix (Fin m) (Fin n) R, MRep rep B M' ∧ RowEquiv (fr K M1) (fr K M') ∧
    IsEch M' rk p ∧ ∀ (i : Fin m) (j : Fin n) q, (i : ℕ) < row → (i : ℕ) < q → q < rk → (j : ℕ) = p q → M' i j = 0) (Nat.zero_le _)
    ⟨M1, hB, (RowEq.refl _).unit, he, fun _ _ _ h => by omega⟩ ?_).mono fun B ⟨M', h1, h2, h3, h4⟩ =>
      ⟨M', h1, RowEquiv.trans hR.unit h2, rk, p, h3, fun i j q a b c => h4 i j q i.2 a b c⟩
  rintro row B _ hr ⟨M', h1, h2, h3, h4⟩
  rw [h1.shape.nr]
  refine (edClearRow_sat (K := K) H hz hr (m - (row + 1)) B M' (row + 1) h1 h3 (by omega) (by omega) fun j q a b => by omega).mono
    fun C ⟨M'', g1, g2, g3, g4, g5⟩ => ⟨M'', g1, h2.trans g3, g2, fun i j q a b c d => ?_⟩
  by_cases hi : (i : ℕ) = row
  · have : i = ⟨row, hr⟩ := Fin.ext hi
    subst this
    exact g5 j q b c d
  · rw [g4 i hi]; exact h4 i j q (by omega) b c d

theorem ed_is_I_sat (H : EDRef U O rep wrep) {A : TMat α} {M : Matrix (Fin n) (Fin n) R} (hn : 0 < n) (hA : MRep rep A M) :
    (TMat.is_I O.toTOps A).Sat U (fun r => r = true ↔ M = 1) := by
  unfold TMat.is_I TMat.is_square
  rw [hA.shape.nr, hA.shape.nc]
  simp only [beq_self_eq_true, Bool.not_true, Bool.false_eq_true, if_false]
  refine (get_sat (hA.at hn hn)).bind fun a ha => ?_
  refine (H.sub (H.weak ha) (H.weak ha)).bind fun z hz => ?_
  rw [sub_self] at hz
  refine (ed_find_one_sat H hn hn hA).bind fun o ho => ?_
  cases o with
  | none =>
    have ho : M = 0 := ho
    subst ho
    simp only [Sat_ok, Bool.false_eq_true, false_iff]
    intro h
    have := congrFun (congrFun h ⟨0, hn⟩) ⟨0, hn⟩
    simp at this
  | some one =>
    refine (diagLoop_sat H.eqRef hA ho.2 n 0 rfl).bind fun d hd => ?_
    cases d with
    | false =>
      simp only [Bool.not_false, if_true, Sat_ok, Bool.false_eq_true, false_iff]
      intro h; subst h
      simpa using hd.mpr fun l _ => by simp
    | true =>
      simp only [Bool.not_true, Bool.false_eq_true, if_false]
      have hd := hd.mp rfl
      refine (offDiag_sat H.eqRef hA hz n 0 rfl).mono fun r hr => hr.trans ⟨fun hh => ?_, fun hh q l _ hne => by rw [hh, Matrix.one_apply_ne hne]⟩
      ext i j
      by_cases hij : i = j
      · subst hij; rw [hd i (by omega)]; simp
      · rw [hh i j (by omega) hij, Matrix.one_apply_ne hij]

omit [IsDomain R] [IsFractionRing R K] in
theorem fr_hcat {k : ℕ} (M : Matrix (Fin m) (Fin n) R) (N : Matrix (Fin m) (Fin k) R) : fr K (hcat M N) = hcat (fr K M) (fr K N) := by
  ext i j
  refine Fin.addCases (fun j => ?_) (fun j => ?_) j
  · simp only [fr, hcat_left, Matrix.map_apply]
  · simp only [fr, hcat_right, Matrix.map_apply]

theorem hcat_surj {k : ℕ} (M : Matrix (Fin m) (Fin (n + k)) R) : ∃ L N, M = hcat L N :=
  ⟨Matrix.of fun i j => M i (Fin.castAdd k j), Matrix.of fun i j => M i (Fin.natAdd n j), by
    ext i j
    refine Fin.addCases (fun j => ?_) (fun j => ?_) j
    · rw [hcat_left]; rfl
    · rw [hcat_right]; rfl⟩

theorem hcat_inj {S : Type} {k : ℕ} {L L' : Matrix (Fin m) (Fin n) S} {N N' : Matrix (Fin m) (Fin k) S} (h : hcat L N = hcat L' N') : L = L' ∧ N = N' := by
  constructor <;> ext i j
  · have := congrFun (congrFun h i) (Fin.castAdd k j); rwa [hcat_left, hcat_left] at this
  · have := congrFun (congrFun h i) (Fin.natAdd n j); rwa [hcat_right, hcat_right] at this

theorem fr_inj {M N : Matrix (Fin m) (Fin n) R} (h : fr K M = fr K N) : M = N := by
  ext i j
  have := congrFun (congrFun h i) j
  simp only [Matrix.map_apply] at this
  exact IsFractionRing.injective R K this

/-- the left half of the reduced form of `[M | 1]`, for invertible `M`: diagonal, with units -/
theorem red_diag (K : Type) [Field K] [Algebra R K] [IsFractionRing R K] {M L N : Matrix (Fin n) (Fin n) R} (hNM : N * M = L) (hN : IsUnit (fr K N)) {rk : ℕ} {p : ℕ → ℕ}
    (h : IsRed (hcat L N) rk p) (hM : IsUnit M) : (∀ i j, i ≠ j → L i j = 0) ∧ ∀ i, IsUnit (L i i) := by
  obtain ⟨M', hMM'⟩ := isUnit_iff_exists_inv.mp hM
  have hNL : N = L * M' := by rw [← hNM, Matrix.mul_assoc, hMM', Matrix.mul_one]
  have hrow : ∀ i : Fin n, ∃ j, L i j ≠ 0 := by
    intro i
    by_contra hc
    push Not at hc
    have hz : N i = 0 := by
      funext j
      rw [hNL, Matrix.mul_apply]
      exact Finset.sum_eq_zero fun k _ => by rw [hc k, zero_mul]
    obtain ⟨P, hP⟩ := isUnit_iff_exists_inv.mp hN
    have := congrFun (congrFun hP i) i
    rw [Matrix.mul_apply, Matrix.one_apply_eq] at this
    rw [Finset.sum_eq_zero fun k _ => by simp only [fr, Matrix.map_apply, hz]; simp] at this
    exact zero_ne_one this
  have hrk : rk = n := by
    refine le_antisymm h.le ?_
    by_contra hlt
    have hlt : rk < n := by omega
    obtain ⟨j, hj⟩ := hrow ⟨rk, hlt⟩
    apply hj
    have := congrFun (h.zero ⟨rk, hlt⟩ le_rfl) (Fin.castAdd n j)
    rwa [hcat_left] at this
  subst hrk
  have hplt : ∀ i : Fin rk, p i < rk := by
    intro i
    by_contra hge
    obtain ⟨j, hj⟩ := hrow i
    apply hj
    have := h.left i (Fin.castAdd rk j) i.2 (by simp; omega)
    rwa [hcat_left] at this
  have hpid : ∀ i : Fin rk, p i = i := fun i =>
    pivots_id (p := fun i : Fin rk => (⟨p i, h.lt i i.2⟩ : Fin (rk + rk))) (fun a b hab => h.mono _ _ hab b.2) hplt i
  have hoff : ∀ i j, i ≠ j → L i j = 0 := by
    intro i j hij
    rw [← hcat_left L N i j]
    rcases lt_or_gt_of_ne hij with hlt | hlt
    · exact h.above i _ j hlt j.2 (by rw [hpid]; simp)
    · exact h.left i _ i.2 (by rw [hpid]; simpa using hlt)
  refine ⟨hoff, fun i => ?_⟩
  rcases h.prim i i.2 with hz | hp
  · obtain ⟨j, hj⟩ := hrow i
    have := congrFun hz (Fin.castAdd rk j)
    rw [hcat_left] at this
    exact absurd this hj
  · refine hp _ fun j => ?_
    refine Fin.addCases (fun j => ?_) (fun j => ?_) j
    · rw [hcat_left]
      by_cases hij : i = j
      · subst hij; exact dvd_rfl
      · rw [hoff i j hij]; exact dvd_zero _
    · rw [hcat_right, hNL, Matrix.mul_apply]
      refine Finset.dvd_sum fun k _ => ?_
      by_cases hik : i = k
      · subst hik; exact dvd_mul_right _ _
      · rw [hoff i k hik, zero_mul]; exact dvd_zero _

/-- The inverse: a positive answer is right; it is given for every invertible matrix if 1 is the only unit. -/
theorem ed_inverse_sat (H : EDRef U O rep wrep) {A : TMat α} {M : Matrix (Fin n) (Fin n) R} (hn : 0 < n) (hA : MRep rep A M) :
    (TMat.ed_inverse O A).Sat U (fun r => (r.1 = true → ∃ B N, r.2 = some B ∧ MRep rep B N ∧ N * M = 1 ∧ M * N = 1) ∧
      (IsUnit M → (∀ u : R, IsUnit u → u = 1) → r.1 = true)) := by
  unfold TMat.ed_inverse TMat.is_square
  refine (get_sat (hA.at hn hn)).bind fun a ha => ?_
  refine (H.sub (H.weak ha) (H.weak ha)).bind fun z hz => ?_
  rw [sub_self] at hz
  rw [hA.shape.nr, hA.shape.nc]
  simp only [beq_self_eq_true, Bool.not_true, Bool.false_eq_true, if_false]
  refine (ed_find_one_sat H hn hn hA).bind fun o ho => ?_
  haveI : Nonempty (Fin n) := ⟨⟨0, hn⟩⟩
  cases o with
  | none =>
    have ho : M = 0 := ho
    rw [Sat_ok]
    refine ⟨by simp, fun hu => ?_⟩
    rw [ho] at hu
    exact absurd hu not_isUnit_zero
  | some one =>
    refine (make_I_sat hA hz ho.2).bind fun I hI => ?_
    refine (paste_sat (O := O.toTOps) hn hA hI).bind fun P hP => ?_
    have hne : hcat M (1 : Matrix (Fin n) (Fin n) R) ≠ 0 := by
      intro h
      have := congrFun (congrFun h ⟨0, hn⟩) (Fin.natAdd n ⟨0, hn⟩)
      rw [hcat_right] at this
      simp at this
    refine (ed_row_echelon_sat (FractionRing R) H hn (by omega) hP hne).bind fun E ⟨M', hE, ⟨Q, hQ, hQM⟩, rk, p, hred⟩ => ?_
    obtain ⟨L, N, rfl⟩ := hcat_surj M'
    refine (split_sat (O := O.toTOps) hn hn hn hE).bind fun lr ⟨hl, hr⟩ => ?_
    refine (ed_is_I_sat H hn hl).bind fun b hb => ?_
    rw [Sat_ok]
    rw [fr_hcat, fr_hcat, mul_hcat] at hQM
    obtain ⟨h1, h2⟩ := hcat_inj hQM
    have h3 : fr (FractionRing R) (1 : Matrix (Fin n) (Fin n) R) = 1 := Matrix.map_one _ (map_zero _) (map_one _)
    rw [h3, Matrix.mul_one] at h2
    have hNM : N * M = L := by
      apply fr_inj (K := FractionRing R)
      rw [h1, ← h2]; exact (Matrix.map_mul (L := N) (M := M) (f := algebraMap R (FractionRing R)))
    refine ⟨fun h => ⟨lr.2, N, rfl, hr, ?_⟩, fun hu ht => hb.mpr ?_⟩
    · have hL := hb.mp h
      rw [hL] at hNM
      exact ⟨hNM, mul_eq_one_comm.mp hNM⟩
    · obtain ⟨h4, h5⟩ := red_diag (FractionRing R) hNM (by rw [h2]; exact hQ) hred hu
      ext i j
      by_cases hij : i = j
      · subst hij; rw [Matrix.one_apply_eq]; exact ht _ (h5 i)
      · rw [Matrix.one_apply_ne hij]; exact h4 i j hij

end
end Spffl
