/-
Proofs about in-place operators with aliased arguments, find_row and the comparison with a scalar.
-/
import Verif.Model.VecAlias
import Verif.Proof.TMatrix

namespace Spffl
open Res
variable {U : Prop} {α R : Type} [CommRing R] {O : TOps α} {rep : α → R → Prop} {m n : ℕ}

theorem vget_ok {v : TVec α} {x : Fin n → R} (hv : VRep rep v x) {k : ℕ} (hk : k < n) : ∃ e, TVec.get v k = ok e := by
  unfold TVec.get
  rw [if_pos (by rw [hv.1]; exact hk)]
  obtain ⟨e, he, -⟩ := (hv.at hk).rd
  exact ⟨e, he⟩

theorem mult_by_own_sat (H : EltRef U O rep) {v : TVec α} {x : Fin n → R} (hv : VRep rep v x) (k : Fin n) :
    (TVec.mult_by_own O v k).Sat U (fun r => VRep rep r (fun i => if i ≤ k then x i * x k else x i * x k ^ 2)) := by
  unfold TVec.mult_by_own
  obtain ⟨e, he⟩ := vget_ok hv k.2
  rw [he, ok_bind, hv.1]
  refine (fillUp_sat (f := fun i s => (do let x ← rd s i; let e ← rd s k; O.mul x e))
    (P := fun i e => ∀ hi : i < n, rep e (if (⟨i, hi⟩ : Fin n) ≤ k then x ⟨i, hi⟩ * x k else x ⟨i, hi⟩ * x k ^ 2))
    (Nat.zero_le _) (by rw [hv.1]) fun i s _ hi hl h1 h2 => ?_).mono fun r ⟨h1, h2, _⟩ => VRep.of (by rw [h1, hv.1]) fun j hj =>
      (h2 j (by omega) hj).mono fun e he => he hj
  refine (rd_sat ((hv.at hi).congr (h1 i (Or.inr le_rfl)))).bind fun p hp => ?_
  by_cases h : i ≤ k
  · refine (rd_sat ((hv.2 k).congr (h1 k (Or.inr h)))).bind fun q hq => ?_
    exact (H.mul hp hq).mono fun r hr hi => by rwa [if_pos (by exact h)]
  · refine (rd_sat (h2 k (Nat.zero_le _) (by omega))).bind fun q hq => ?_
    have hq' := hq k.2
    rw [if_pos le_rfl] at hq'
    exact (H.mul hp hq').mono fun r hr hi => by rwa [if_neg (by exact h), sq]

theorem div_by_own_sat (H : EltRef U O rep) {v : TVec α} {x : Fin n → R} (hv : VRep rep v x) (k : Fin n) {z : R} (hz : x k * z = 1) :
    (TVec.div_by_own O v k).Sat U (fun r => VRep rep r (fun i => if i ≤ k then x i * z else x i)) := by
  unfold TVec.div_by_own
  obtain ⟨e, he⟩ := vget_ok hv k.2
  rw [he, ok_bind, hv.1]
  refine (fillUp_sat (f := fun i s => (do let x ← rd s i; let e ← rd s k; O.div x e))
    (P := fun i e => ∀ hi : i < n, rep e (if (⟨i, hi⟩ : Fin n) ≤ k then x ⟨i, hi⟩ * z else x ⟨i, hi⟩))
    (Nat.zero_le _) (by rw [hv.1]) fun i s _ hi hl h1 h2 => ?_).mono fun r ⟨h1, h2, _⟩ => VRep.of (by rw [h1, hv.1]) fun j hj =>
      (h2 j (by omega) hj).mono fun e he => he hj
  refine (rd_sat ((hv.at hi).congr (h1 i (Or.inr le_rfl)))).bind fun p hp => ?_
  by_cases h : i ≤ k
  · refine (rd_sat ((hv.2 k).congr (h1 k (Or.inr h)))).bind fun q hq => ?_
    exact (H.div hp hq hz).mono fun r hr hi => by rwa [if_pos (by exact h)]
  · refine (rd_sat (h2 k (Nat.zero_le _) (by omega))).bind fun q hq => ?_
    have hq' := hq k.2
    rw [if_pos le_rfl] at hq'
    change rep q (x k * z) at hq'
    rw [hz] at hq'
    exact (H.div hp hq' (one_mul 1)).mono fun r hr hi => by rw [if_neg (by exact h)]; rwa [mul_one] at hr

theorem cmul_assign_sat (H : EltRef U O rep) {v w : TVec α} {x y : Fin n → R} (hv : VRep rep v x) (hw : VRep rep w y) :
    (TVec.cmul_assign O v w).Sat U (fun r => VRep rep r (fun i => x i * y i)) := by
  unfold TVec.cmul_assign TVec.check_equal_lengths
  rw [if_pos (by rw [hv.1, hw.1]), ok_bind, hv.1]
  refine (fillUp_sat (f := fun i s => (do let x ← rd s i; let y ← rd w i; O.mul x y))
    (P := fun i e => ∀ hi : i < n, rep e (x ⟨i, hi⟩ * y ⟨i, hi⟩))
    (Nat.zero_le _) (by rw [hv.1]) fun i s _ hi hl h1 h2 => ?_).mono fun r ⟨h1, h2, _⟩ => VRep.of (by rw [h1, hv.1]) fun j hj =>
      (h2 j (by omega) hj).mono fun e he => he hj
  refine (rd_sat ((hv.at hi).congr (h1 i (Or.inr le_rfl)))).bind fun p hp => ?_
  refine (rd_sat (hw.at hi)).bind fun q hq => ?_
  exact (H.mul hp hq).mono fun r hr _ => hr

theorem cmul_assign_self_sat (H : EltRef U O rep) {v : TVec α} {x : Fin n → R} (hv : VRep rep v x) :
    (TVec.cmul_assign_self O v).Sat U (fun r => VRep rep r (fun i => x i * x i)) := by
  unfold TVec.cmul_assign_self TVec.check_equal_lengths
  rw [if_pos rfl, ok_bind, hv.1]
  refine (fillUp_sat (f := fun i s => (do let x ← rd s i; let y ← rd s i; O.mul x y))
    (P := fun i e => ∀ hi : i < n, rep e (x ⟨i, hi⟩ * x ⟨i, hi⟩))
    (Nat.zero_le _) (by rw [hv.1]) fun i s _ hi hl h1 h2 => ?_).mono fun r ⟨h1, h2, _⟩ => VRep.of (by rw [h1, hv.1]) fun j hj =>
      (h2 j (by omega) hj).mono fun e he => he hj
  refine (rd_sat ((hv.at hi).congr (h1 i (Or.inr le_rfl)))).bind fun p hp => ?_
  refine (rd_sat ((hv.at hi).congr (h1 i (Or.inr le_rfl)))).bind fun q hq => ?_
  exact (H.mul hp hq).mono fun r hr _ => hr

/-- what `find_row` answers: the first row that is `x` -/
def IsFirst {n m : ℕ} (M : Matrix (Fin m) (Fin n) R) (x : Fin n → R) (from_ : ℕ) : Option ℕ → Prop
  | none => ∀ i : Fin m, from_ ≤ i → M i ≠ x
  | some k => ∃ h : k < m, M ⟨k, h⟩ = x ∧ ∀ i : Fin m, from_ ≤ i → i < k → M i ≠ x

theorem findRowLoop_sat (H : EltRef U O rep) {A : TMat α} {M : Matrix (Fin m) (Fin n) R} (hA : MRep rep A M) {v : TVec α} {x : Fin n → R}
    (hv : VRep rep v x) : ∀ (k i : ℕ), i + k = m → (TMat.findRowLoop O A v k i).Sat U (IsFirst M x i)
  | 0, i, h => by
    rw [TMat.findRowLoop, Sat_ok]
    intro j hj; omega
  | k + 1, i, h => by
    obtain ⟨r, hr, hr'⟩ := hA.rowRep (i := i) (by omega)
    rw [TMat.findRowLoop, show rd A.rows i = ok r by unfold rd; rw [hr], ok_bind]
    refine (veq_sat H hr' hv).bind fun b hb => ?_
    split
    · rename_i hbt
      rw [Sat_ok]
      exact ⟨by omega, hb.1 hbt, fun j h1 h2 => by omega⟩
    · rename_i hbf
      have hne : M ⟨i, by omega⟩ ≠ x := fun e => hbf (hb.2 e)
      have key : ∀ j : Fin m, i ≤ j → ¬ i + 1 ≤ (j : ℕ) → M j ≠ x := fun j h1 h2 => by
        rw [show j = ⟨i, by omega⟩ from Fin.ext (by simp; omega)]; exact hne
      refine (findRowLoop_sat H hA hv k (i + 1) (by omega)).mono fun o ho => ?_
      cases o with
      | none =>
        intro j hj
        by_cases h' : i + 1 ≤ (j : ℕ)
        · exact ho j h'
        · exact key j hj h'
      | some t =>
        obtain ⟨h1, h2, h3⟩ := ho
        refine ⟨h1, h2, fun j hj hjt => ?_⟩
        by_cases h' : i + 1 ≤ (j : ℕ)
        · exact h3 j h' hjt
        · exact key j hj h'

theorem find_row_sat (H : EltRef U O rep) {A : TMat α} {M : Matrix (Fin m) (Fin n) R} (hA : MRep rep A M) {v : TVec α} {x : Fin n → R}
    (hv : VRep rep v x) : (TMat.find_row O A v).Sat U (IsFirst M x 0) := by
  unfold TMat.find_row
  rw [hA.shape.nr]
  exact findRowLoop_sat H hA hv m 0 (by omega)

/-- Vectors of another length are not found. -/
theorem find_row_len {A : TMat α} (hA : Shape A m n) {v : TVec α} (hv : v.length ≠ n) : TMat.find_row O A v = ok none := by
  unfold TMat.find_row
  rw [hA.nr]
  have : ∀ k i, i + k = m → TMat.findRowLoop O A v k i = ok none := by
    intro k
    induction k with
    | zero => intro i _; rfl
    | succ k ih =>
      intro i h
      obtain ⟨r, hr, hl⟩ := hA.row i (by omega)
      rw [TMat.findRowLoop, show rd A.rows i = ok r by unfold rd; rw [hr], ok_bind, veq_len (by rw [hl]; exact hv.symm), ok_bind,
        if_neg (by simp), ih (i + 1) (by omega)]
  exact this m 0 (by omega)

theorem vsEqLoop_sat (H : EltRef U O rep) {v : TVec α} {x : Fin n → R} (hv : VRep rep v x) {e : α} {c : R} (he : rep e c) :
    ∀ k i, i + k = n → (TVec.eqScalarLoop O v e k i).Sat U (fun r => r = true ↔ ∀ j : Fin n, i ≤ j → x j = c)
  | 0, i, h => by
    rw [TVec.eqScalarLoop, Sat_ok]
    simp only [true_iff]; intro j hj; omega
  | k + 1, i, h => by
    have hi : i < n := by omega
    rw [TVec.eqScalarLoop]
    refine (rd_sat (hv.at hi)).bind fun a ha => ?_
    refine (ne_sat H ha he).bind fun d hd => ?_
    split
    · rename_i ht
      rw [Sat_ok]
      simp only [Bool.false_eq_true, false_iff]
      exact fun hh => hd.1 ht (hh ⟨i, hi⟩ le_rfl)
    · rename_i hf
      have hx : x ⟨i, hi⟩ = c := by by_contra hc; exact hf (hd.2 hc)
      refine (vsEqLoop_sat H hv he k (i + 1) (by omega)).mono fun r hr => hr.trans ⟨fun hh j hj => ?_, fun hh j hj => hh j (by omega)⟩
      by_cases h' : i + 1 ≤ (j : ℕ)
      · exact hh j h'
      · rw [show j = ⟨i, hi⟩ from Fin.ext (by simp; omega)]; exact hx

theorem msEqLoop_sat (H : EltRef U O rep) {A : TMat α} {M : Matrix (Fin m) (Fin n) R} (hA : MRep rep A M) {e : α} {c : R} (he : rep e c) :
    ∀ k i, i + k = m → (TMat.eqScalarLoop O A e k i).Sat U (fun r => r = true ↔ ∀ j : Fin m, i ≤ j → ∀ l, M j l = c)
  | 0, i, h => by
    rw [TMat.eqScalarLoop, Sat_ok]
    simp only [true_iff]; intro j hj; omega
  | k + 1, i, h => by
    have hi : i < m := by omega
    obtain ⟨r, hr, hr'⟩ := hA.rowRep (i := i) hi
    rw [TMat.eqScalarLoop, show rd A.rows i = ok r by unfold rd; rw [hr], ok_bind]
    have h1 : (TVec.eqScalar O r e).Sat U (fun b => b = true ↔ ∀ l, M ⟨i, hi⟩ l = c) := by
      unfold TVec.eqScalar
      rw [hr'.1]
      exact (vsEqLoop_sat H hr' he n 0 (by omega)).mono fun b hb => hb.trans ⟨fun h l => h l (Nat.zero_le _), fun h l _ => h l⟩
    refine h1.bind fun b hb => ?_
    split
    · rename_i hf
      rw [Sat_ok]
      simp only [Bool.false_eq_true, false_iff]
      intro hh
      have := hb.2 (hh ⟨i, hi⟩ le_rfl)
      rw [this] at hf; simp at hf
    · rename_i ht
      have hx := hb.1 (by simpa using ht)
      refine (msEqLoop_sat H hA he k (i + 1) (by omega)).mono fun r hr => hr.trans ⟨fun hh j hj => ?_, fun hh j hj => hh j (by omega)⟩
      by_cases h' : i + 1 ≤ (j : ℕ)
      · exact hh j h'
      · rw [show j = ⟨i, hi⟩ from Fin.ext (by simp; omega)]; exact hx

theorem msEq_sat (H : EltRef U O rep) {A : TMat α} {M : Matrix (Fin m) (Fin n) R} (hA : MRep rep A M) {e : α} {c : R} (he : rep e c) :
    (TMat.eqScalar O A e).Sat U (fun r => r = true ↔ ∀ i j, M i j = c) := by
  unfold TMat.eqScalar
  rw [hA.shape.nr]
  exact (msEqLoop_sat H hA he m 0 (by omega)).mono fun b hb => hb.trans ⟨fun h i => h i (Nat.zero_le _), fun h i _ => h i⟩

end Spffl
