/-
Reduced row echelon form, kernel basis, inverse, linear solve and powers of tmatrix over a field.
-/
import Verif.Proof.RowReduce

namespace Spffl
open Res

section math
variable {F : Type} [Field F] {m n : ℕ}

theorem RowEquiv.trans {A B C : Matrix (Fin m) (Fin n) F} (h1 : RowEquiv A B) (h2 : RowEquiv B C) : RowEquiv A C := by
  obtain ⟨P, hP, rfl⟩ := h1
  obtain ⟨Q, hQ, rfl⟩ := h2
  exact ⟨Q * P, hQ.mul hP, by rw [Matrix.mul_assoc]⟩

theorem RowEquiv.addRow (B : Matrix (Fin m) (Fin n) F) {i k : Fin m} (hik : i ≠ k) (c : F) :
    RowEquiv B (B.updateRow i (B i + c • B k)) := ((RowEq.refl B).addRow hik c).unit

namespace IsEchelon
variable {B : Matrix (Fin m) (Fin n) F} {r : ℕ} {p : Fin r → Fin n}

/-- the leader of a non-zero row is where the form says -/
theorem leader (h : IsEchelon B r p) {i : Fin m} (hi : (i : ℕ) < r) {j : Fin n} (hj : B i j ≠ 0)
    (hz : ∀ l : Fin n, (l : ℕ) < j → B i l = 0) : j = p ⟨i, hi⟩ := by
  rcases lt_trichotomy j (p ⟨i, hi⟩) with h1 | h1 | h1
  · exact absurd (h.left ⟨i, hi⟩ j h1) hj
  · exact h1
  · have := h.one ⟨i, hi⟩
    rw [show (⟨(⟨i, hi⟩ : Fin r), _⟩ : Fin m) = i from rfl, hz _ h1] at this
    exact absurd this zero_ne_one

theorem at_pivot (h : IsEchelon B r p) {i : Fin m} {k : Fin r} (hik : (k : ℕ) < i) : B i (p k) = 0 := by
  by_cases hi : (i : ℕ) < r
  · exact h.left ⟨i, hi⟩ (p k) (h.mono hik)
  · rw [h.zero i (by omega)]; rfl

/-- subtracting a multiple of a lower row keeps the form -/
theorem subLower (h : IsEchelon B r p) {i k : Fin m} (hik : (i : ℕ) < k) (hk : (k : ℕ) < r) (c : F) :
    IsEchelon (B.updateRow i (B i + c • B k)) r p where
  le := h.le
  mono := h.mono
  zero := fun l hl => by
    rw [Matrix.updateRow_ne (by rintro rfl; omega)]; exact h.zero l hl
  one := fun l => by
    by_cases hli : (⟨l, l.2.trans_le h.le⟩ : Fin m) = i
    · subst hli
      simp [h.one l, h.at_pivot (i := k) (k := l) hik]
    · rw [Matrix.updateRow_ne hli]; exact h.one l
  left := fun l j hj => by
    by_cases hli : (⟨l, l.2.trans_le h.le⟩ : Fin m) = i
    · subst hli
      have h2 : j < p ⟨k, hk⟩ := hj.trans (h.mono hik)
      have h3 : B k j = 0 := h.left ⟨k, hk⟩ j h2
      simp [h.left l j hj, h3]
    · rw [Matrix.updateRow_ne hli]; exact h.left l j hj

end IsEchelon
end math

variable {U : Prop} {α F : Type} [Field F] {O : TOps α} {rep : α → F → Prop} {m n : ℕ}

theorem vsub_sat {R : Type} [CommRing R] {rep : α → R → Prop} (H : EltRef U O rep) {a b : TVec α} {x y : Fin n → R} (hn : 0 < n)
    (ha : VRep rep a x) (hb : VRep rep b y) : (TVec.sub O a b).Sat U (fun r => VRep rep r (x - y)) :=
  vcomp_sat H.sub hn ha hb

theorem clearRow_sat (H : EltRef U O rep) (hn : 0 < n) {zero : α} (hz : rep zero 0) {rk : ℕ} {p : Fin rk → Fin n} {row : ℕ} (hrow : row < m)
    {M0 : Matrix (Fin m) (Fin n) F} :
    ∀ k (A : TMat α) (row2 : ℕ) (M : Matrix (Fin m) (Fin n) F), k + row2 = m → row < row2 → MRep rep A M → IsEchelon M rk p → RowEquiv M0 M →
      (∀ q : Fin rk, row < (q : ℕ) → (q : ℕ) < row2 → M ⟨row, hrow⟩ (p q) = 0) →
      (TMat.clearRow O zero row k A row2).Sat U (fun r => ∃ M', MRep rep r M' ∧ IsEchelon M' rk p ∧ RowEquiv M0 M' ∧
        (∀ q : Fin rk, row < (q : ℕ) → M' ⟨row, hrow⟩ (p q) = 0) ∧ ∀ i : Fin m, (i : ℕ) ≠ row → M' i = M i)
  | 0, A, row2, M, hk, hlt, hA, he, hR, hc => by
    unfold TMat.clearRow
    rw [Sat_ok]
    exact ⟨M, hA, he, hR, fun q hq => hc q hq (by have := q.2; have := he.le; omega), fun _ _ => rfl⟩
  | k + 1, A, row2, M, hk, hlt, hA, he, hR, hc => by
    unfold TMat.clearRow
    have h2 : row2 < m := by omega
    refine (rd_sat (hA.rowRep h2)).bind fun r2 hr2 => ?_
    refine (find_leader_sat H.eqRef hr2 hz).bind fun l hl => ?_
    cases l with
    | none =>
      have hl' : rk ≤ row2 := he.row_eq_zero.mp hl
      exact ⟨M, hA, he, hR, fun q hq => hc q hq (by have := q.2; omega), fun _ _ => rfl⟩
    | some pos =>
      obtain ⟨hp, hne, hlz⟩ := hl
      have hrk : row2 < rk := by
        by_contra hge
        exact hne (by rw [he.zero ⟨row2, h2⟩ (by simpa using hge)]; rfl)
      have hpos : (⟨pos, hp⟩ : Fin n) = p ⟨row2, hrk⟩ := he.leader hrk hne hlz
      refine (get_sat (hA.at h2 hp)).bind fun lead hlead => ?_
      refine (get_sat (hA.at hrow hp)).bind fun cv hcv => ?_
      refine (H.eq hcv hz).bind fun e hee => ?_
      by_cases hez : e = true
      · rw [if_pos hez]
        refine clearRow_sat H hn hz hrow k A (row2 + 1) M (by omega) (by omega) hA he hR fun q hq1 hq2 => ?_
        by_cases hq : (q : ℕ) = row2
        · have : q = ⟨row2, hrk⟩ := Fin.ext hq
          rw [this, ← hpos]; exact hee.mp hez
        · exact hc q hq1 (by omega)
      · rw [if_neg hez]
        have hl1 : M ⟨row2, h2⟩ ⟨pos, hp⟩ = 1 := by rw [hpos]; exact he.one ⟨row2, hrk⟩
        refine (fdiv_sat H hcv hlead hne).bind fun q hq => ?_
        rw [hl1, div_one] at hq
        refine (setRow_sat (x := M ⟨row, hrow⟩ - M ⟨row, hrow⟩ ⟨pos, hp⟩ • M ⟨row2, h2⟩) hA hrow ?_).bind fun B hB => ?_
        · refine (rd_sat (hA.rowRep hrow)).bind fun r hr => ?_
          refine (vsmul_sat H hn hr2 hq).bind fun t ht => ?_
          exact vsub_sat H hn hr ht
        rw [sub_eq_add_neg, ← neg_smul] at hB
        have hne2 : (⟨row, hrow⟩ : Fin m) ≠ ⟨row2, h2⟩ := by simp [Fin.ext_iff]; omega
        refine (clearRow_sat H hn hz hrow k B (row2 + 1) _ (by omega) (by omega) hB (he.subLower hlt hrk _)
          (hR.trans (RowEquiv.addRow M hne2 _)) fun q hq1 hq2 => ?_).mono fun r ⟨M', g1, g2, g3, g4, g5⟩ =>
            ⟨M', g1, g2, g3, g4, fun i hi => (g5 i hi).trans (Matrix.updateRow_ne (by simpa [Fin.ext_iff] using hi))⟩
        by_cases hq : (q : ℕ) = row2
        · have : q = ⟨row2, hrk⟩ := Fin.ext hq
          rw [this, ← hpos]; simp [hl1]
        · have h1 := hc q hq1 (by omega)
          have h2' : M ⟨row2, h2⟩ (p q) = 0 := he.at_pivot (by simp; omega)
          simp [h1, h2']

/-- row_echelon_form yields the reduced row echelon form. -/
theorem ref_sat (H : EltRef U O rep) {A : TMat α} {M : Matrix (Fin m) (Fin n) F} (hm : 0 < m) (hn : 0 < n) (hA : MRep rep A M) :
    (TMat.row_echelon_form O A).Sat U (fun r => ∃ M', MRep rep r M' ∧ (∃ rk p, IsReduced M' rk p) ∧ RowEquiv M M') := by
  unfold TMat.row_echelon_form
  refine (rr_sat H hm hn hA).bind fun B hB => ?_
  obtain ⟨M1, hB, ⟨rk, p, he⟩, hR⟩ := hB
  refine (get_sat (hB.at hm hn)).bind fun a ha => ?_
  refine (H.sub ha ha).bind fun z hz => ?_
  rw [sub_self] at hz
  rw [hB.shape.nr]
  refine (forUp_sat (fun i A => ∃ M', MRep rep A M' ∧ IsEchelon M' rk p ∧ RowEquiv M M' ∧
    ∀ (l : Fin m) (q : Fin rk), (l : ℕ) < i → (l : ℕ) < q → M' l (p q) = 0) (Nat.zero_le _) ⟨M1, hB, he, hR, fun _ _ h => by omega⟩ ?_).mono
    fun r ⟨M', h1, h2, h3, h4⟩ => ⟨M', h1, ⟨rk, p, h2, fun i k hik => ?_⟩, h3⟩
  · intro row A' _ hrow ⟨M', h1, h2, h3, h4⟩
    rw [h1.shape.nr]
    refine (clearRow_sat H hn hz hrow (m - (row + 1)) A' (row + 1) M' (by omega) (by omega) h1 h2 h3 fun q h1 h2 => by omega).mono
      fun r ⟨M'', g1, g2, g3, g4, g5⟩ => ⟨M'', g1, g2, g3, fun l q hl hlq => ?_⟩
    by_cases hlr : (l : ℕ) = row
    · have : l = ⟨row, hrow⟩ := Fin.ext hlr
      rw [this]; exact g4 q (by omega)
    · rw [g5 l hlr]; exact h4 l q (by omega) hlq
  · rcases Nat.lt_or_gt_of_ne hik with h | h
    · exact h4 i k i.2 h
    · exact h2.at_pivot h

end Spffl
