/-
Proofs about the comparisons and the self-checks of matrices.
-/
import Verif.Model.BitCheck
import Verif.Proof.BitMatrix
import Verif.Proof.ExprMat

namespace Spffl
open Res

/-- A check that returns if `C` holds and throws otherwise; undefined behaviour only if `U`. -/
def Gate (U : Prop) (r : Res Unit) (C : Prop) : Prop := (C → r.Sat U fun _ => True) ∧ (¬ C → r.Throws U)

theorem Gate.iff {U : Prop} {r : Res Unit} {C D : Prop} (h : Gate U r C) (e : C ↔ D) : Gate U r D := by
  rw [← propext e]; exact h

theorem gate_false {r : Res Unit} {C : Prop} : Gate False r C ↔ (r = ok () ∧ C) ∨ (r = throw ∧ ¬ C) := by
  unfold Gate
  by_cases h : C
  · simp only [h, true_imp_iff, not_true, false_imp_iff, and_true, and_false, or_false, sat_false]
    exact ⟨fun ⟨_, e, _⟩ => e, fun e => ⟨(), e, trivial⟩⟩
  · simp [h, throws_false]

theorem gate_iff {r : Res Unit} {C : Prop} (h : Gate False r C) : (r = ok () ↔ C) ∧ (r = throw ↔ ¬ C) := by
  rcases gate_false.1 h with ⟨e, c⟩ | ⟨e, c⟩ <;> subst e
  · exact ⟨⟨fun _ => c, fun _ => rfl⟩, ⟨(fun h => nomatch h), fun h => absurd c h⟩⟩
  · exact ⟨⟨(fun h => nomatch h), fun h => absurd h c⟩, ⟨fun _ => c, fun _ => rfl⟩⟩

theorem Sat.gate {U : Prop} {α : Type} {r : Res α} {f : α → Res Unit} {P : α → Prop} {C : Prop} (h : r.Sat U P)
    (hf : ∀ a, P a → Gate U (f a) C) : Gate U (r >>= f) C :=
  ⟨fun hc => h.bind fun a ha => (hf a ha).1 hc, fun hc => h.throws_bind fun a ha => (hf a ha).2 hc⟩

theorem gate_ite {U : Prop} {b : Bool} {C : Prop} (h : b = true ↔ C) : Gate U (if !b then throw else ok ()) C := by
  cases b with
  | true => exact ⟨fun _ => trivial, fun hc => absurd (h.1 rfl) hc⟩
  | false => exact ⟨fun hc => absurd (h.2 hc) (by simp), fun _ => Or.inl rfl⟩

theorem loopUp_gate {U : Prop} {body : ℕ → Unit → Res Unit} {C : ℕ → Prop} : ∀ k lo, (∀ i, lo ≤ i → i < lo + k → Gate U (body i ()) (C i)) →
    Gate U (loopUp body k lo ()) (∀ i, lo ≤ i → i < lo + k → C i)
  | 0, lo, _ => ⟨fun _ => trivial, fun h => absurd (fun i h1 h2 => by omega) h⟩
  | k + 1, lo, hb => by
    have h0 := hb lo le_rfl (by omega)
    have ih := loopUp_gate k (lo + 1) fun i h1 h2 => hb i (by omega) (by omega)
    unfold loopUp
    refine ⟨fun hc => (h0.1 (hc lo le_rfl (by omega))).bind fun _ _ => ih.1 fun i h1 h2 => hc i (by omega) (by omega), fun hc => ?_⟩
    by_cases h : C lo
    · refine (h0.1 h).throws_bind fun _ _ => ih.2 fun hh => hc fun i h1 h2 => ?_
      rcases Nat.eq_or_lt_of_le h1 with e | e
      · rwa [← e]
      · exact hh i e (by omega)
    · exact (h0.2 h).bind

theorem forUp_gate {U : Prop} {body : ℕ → Unit → Res Unit} {C : ℕ → Prop} {n : ℕ} (hb : ∀ i, i < n → Gate U (body i ()) (C i)) :
    Gate U (forUp 0 n () body) (∀ i, i < n → C i) :=
  (loopUp_gate (n - 0) 0 fun i _ h2 => hb i (by omega)).iff ⟨fun h i hi => h i (Nat.zero_le _) (by omega), fun h i _ hi => h i (by omega)⟩

section mats
variable {U : Prop} {α F : Type} [Field F] {O : TOps α} {rep : α → F → Prop} {m n : ℕ}

theorem check_inverse_gate (H : EltRef U O rep) {A B : TMat α} {M : Matrix (Fin m) (Fin n) F} {N : Matrix (Fin n) (Fin m) F} (hm : 0 < m)
    (hn : 0 < n) (hA : MRep rep A M) (hB : MRep rep B N) : Gate U (TMat.check_inverse O A B) (M * N = 1 ∧ N * M = 1) := by
  unfold TMat.check_inverse
  refine Sat.gate (mul_sat' H hm hm hn hA hB) fun P hP => ?_
  refine Sat.gate (mul_sat' H hn hn hm hB hA) fun Q hQ => ?_
  refine Sat.gate (is_I_sat H hm hP) fun b hb => ?_
  cases b with
  | false => exact ⟨fun h => absurd (hb.2 h.1) (by simp), fun _ => Or.inl rfl⟩
  | true =>
    refine Sat.gate (is_I_sat H hn hQ) fun c hc => ?_
    exact (gate_ite hc).iff ⟨fun h => ⟨hb.1 rfl, h⟩, fun h => h.2⟩

theorem check_kernel_basis_gate (H : EltRef U O rep) {A B : TMat α} {M : Matrix (Fin m) (Fin n) F} {d : ℕ} {K : Matrix (Fin d) (Fin n) F}
    (hm : 0 < m) (hn : 0 < n) (hA : MRep rep A M) (hB : MRep rep B K) :
    Gate U (TMat.check_kernel_basis O A B) (∀ i, M.mulVec (K i) = 0) := by
  unfold TMat.check_kernel_basis
  refine Sat.gate (get_sat (hA.at hm hn)) fun a ha => ?_
  refine Sat.gate (get_sat (hA.at hm hn)) fun a' ha' => ?_
  refine Sat.gate (H.sub ha ha') fun z hz => ?_
  rw [sub_self] at hz
  rw [hB.shape.nr]
  refine (forUp_gate (C := fun i => ∀ h : i < d, M.mulVec (K ⟨i, h⟩) = 0) fun i hi => ?_).iff ⟨fun h i => h i i.2 i.2, fun h i _ hi => h ⟨i, hi⟩⟩
  obtain ⟨r, hr, hv⟩ := hB.rowRep hi
  rw [show rd B.rows i = ok r by simp [rd, hr]]
  simp only [ok_bind]
  refine Sat.gate (mulVec_sat H hm hn hA hv) fun w hw => ?_
  unfold TVec.eqScalar
  rw [hw.1]
  refine Sat.gate (eqScalarLoop_sat H hw hz m 0 rfl) fun e he => ?_
  exact gate_ite (he.trans ⟨fun h _ => funext fun j => h j (Nat.zero_le _), fun h j _ => congrFun (h hi) j⟩)

end mats

namespace BV
variable {n : ℕ}

theorem eqScalarLoop_zero {a : List (BitVec 64)} : ∀ k i, k + i ≤ a.length → ∃ r, eqScalarLoop a 0#64 k i = ok r ∧
    (r = true ↔ ∀ t, 64 * i ≤ t → t < 64 * (k + i) → bit a t = false)
  | k, i, h => by
    have hz : ∀ t, bit (List.replicate (k + i) 0#64) t = false := fun t => by
      unfold bit F2P.g
      rw [List.getD_eq_getElem?_getD, List.getElem?_replicate]
      split <;> simp
    obtain ⟨r, h1, h2⟩ := eqLoop_ok (a := a) (b := List.replicate (k + i) 0#64) k i h (by simp)
    refine ⟨r, ?_, h2.trans (by simp only [hz])⟩
    have : ∀ k' i', k' + i' = k + i → eqScalarLoop a 0#64 k' i' = eqLoop a (List.replicate (k + i) 0#64) k' i' := by
      intro k'
      induction k' with
      | zero => intro i' _; rfl
      | succ k' ih =>
        intro i' h'
        unfold eqScalarLoop eqLoop
        rw [show rd (List.replicate (k + i) 0#64) i' = ok 0#64 by
          unfold rd; rw [List.getElem?_replicate, if_pos (by omega)]]
        simp only [ok_bind]
        rw [ih (i' + 1) (by omega)]
    rw [this k i rfl, h1]

/-- `v == bit_t(0)` looks at all words but the last. -/
theorem eqScalar_zero {v : BV} {x : Fin n → ZMod 2} (hv : Rep v x) :
    ∃ r, eqScalar v false = ok r ∧ (r = true ↔ ∀ i : Fin n, (i : ℕ) < (n - 1) / 64 * 64 → x i = 0) := by
  unfold eqScalar
  rw [hv.nw]
  obtain ⟨r, h1, h2⟩ := eqScalarLoop_zero (a := v.words) (nwords n - 1) 0 (by have := hv.len; omega)
  refine ⟨r, h1, h2.trans ⟨fun hh i hi => ?_, fun hh t _ ht => ?_⟩⟩
  · rw [← hv.bit i, hh i (by omega) (by unfold nwords; omega)]; rfl
  · have htn : t < n := by unfold nwords at ht; omega
    have := hh ⟨t, htn⟩ (by unfold nwords at ht; simp only; omega)
    rw [← hv.bit] at this
    cases hb : bit v.words t with
    | false => rfl
    | true => simp only [hb] at this; exact absurd this (by decide)

end BV

namespace BM
variable {U : Prop} {m n : ℕ}

theorem sub_rep {A B : BM} {M N : Matrix (Fin m) (Fin n) (ZMod 2)} (hm : 0 < m) (hn : 0 < n) (hA : Rep A M) (hB : Rep B N) :
    ∃ C, sub A B = ok C ∧ Rep C (M - N) := by
  unfold sub
  rw [hA.nr, hA.nc, hB.nr, hB.nc, if_neg (by simp)]
  obtain ⟨Z, z1, z2⟩ := alloc_rep hm hn
  rw [z1, ok_bind]
  have := assignRows_sat (U := False) (f := fun i => do let x ← rd A.rows i; let y ← rd B.rows i; BV.sub x y) (M := M - N) z2.slots fun i hi => by
    obtain ⟨v, h1, h2⟩ := hA.at hi
    obtain ⟨w, h3, h4⟩ := hB.at hi
    rw [h1, h3]
    exact sat_of_ok (BV.sub_rep hn h2 h4)
  obtain ⟨rs, h1, h2, h3⟩ := ok_of_sat this
  have e : (forUp 0 m Z.rows fun i rs => do
      let x ← rd A.rows i
      let y ← rd B.rows i
      let z ← BV.sub x y
      assignRow rs i z) = ok rs := by
    rw [← h1]
    congr 1
    funext i rs
    simp only [bind_assoc]
  rw [e]
  exact ⟨_, rfl, z2.nr, z2.nc, h2, h3⟩

theorem eqLoop_rep {A B : BM} {M N : Matrix (Fin m) (Fin n) (ZMod 2)} (hA : Rep A M) (hB : Rep B N) : ∀ k i, i + k = m →
    ∃ r, eqLoop A B k i = ok r ∧ (r = true ↔ ∀ a : Fin m, i ≤ a → ∀ b : Fin n, (b : ℕ) < 64 * (BV.nwords n - 1) → M a b = N a b)
  | 0, i, h => ⟨true, rfl, by simp only [true_iff]; intro a ha; omega⟩
  | k + 1, i, h => by
    have hi : i < m := by omega
    obtain ⟨v, h1, h2⟩ := hA.at hi
    obtain ⟨w, h3, h4⟩ := hB.at hi
    obtain ⟨e, e1, e2⟩ := BV.eq_rep h2 h4
    unfold eqLoop
    rw [h1, h3]
    simp only [ok_bind]
    rw [e1]
    simp only [ok_bind]
    cases e with
    | false => exact ⟨false, rfl, by
        simp only [Bool.false_eq_true, false_iff] at e2 ⊢
        exact fun hh => e2 fun b hb => hh ⟨i, hi⟩ le_rfl b hb⟩
    | true =>
      obtain ⟨r, r1, r2⟩ := eqLoop_rep hA hB k (i + 1) (by omega)
      refine ⟨r, r1, r2.trans ⟨fun hh a ha b hb => ?_, fun hh a ha => hh a (by omega)⟩⟩
      by_cases h' : i + 1 ≤ (a : ℕ)
      · exact hh a h' b hb
      · rw [show a = ⟨i, hi⟩ from Fin.ext (by simp; omega)]; exact e2.1 rfl b hb

theorem eqScalarLoop_rep {A : BM} {M : Matrix (Fin m) (Fin n) (ZMod 2)} (hA : Rep A M) : ∀ k i, i + k = m →
    ∃ r, eqScalarLoop A false k i = ok r ∧ (r = true ↔ ∀ a : Fin m, i ≤ a → ∀ b : Fin n, (b : ℕ) < (n - 1) / 64 * 64 → M a b = 0)
  | 0, i, h => ⟨true, rfl, by simp only [true_iff]; intro a ha; omega⟩
  | k + 1, i, h => by
    have hi : i < m := by omega
    obtain ⟨v, h1, h2⟩ := hA.at hi
    obtain ⟨e, e1, e2⟩ := BV.eqScalar_zero h2
    unfold eqScalarLoop
    rw [h1]
    simp only [ok_bind]
    rw [e1]
    simp only [ok_bind]
    cases e with
    | false => exact ⟨false, rfl, by
        simp only [Bool.false_eq_true, false_iff] at e2 ⊢
        exact fun hh => e2 fun b hb => hh ⟨i, hi⟩ le_rfl b hb⟩
    | true =>
      obtain ⟨r, r1, r2⟩ := eqScalarLoop_rep hA k (i + 1) (by omega)
      refine ⟨r, r1, r2.trans ⟨fun hh a ha b hb => ?_, fun hh a ha => hh a (by omega)⟩⟩
      by_cases h' : i + 1 ≤ (a : ℕ)
      · exact hh a h' b hb
      · rw [show a = ⟨i, hi⟩ from Fin.ext (by simp; omega)]; exact e2.1 rfl b hb

theorem check_inverse_gate {tm : TrimMask} (H : ∀ k, (tm k).Sat U fun _ => True) {A B : BM} {M : Matrix (Fin m) (Fin n) (ZMod 2)}
    {N : Matrix (Fin n) (Fin m) (ZMod 2)} (hm : 0 < m) (hn : 0 < n) (hA : Rep A M) (hB : Rep B N) :
    Gate U (check_inverse tm A B) (M * N = 1 ∧ N * M = 1) := by
  unfold check_inverse
  refine Sat.gate (mul_sat H hm hn hm hA hB) fun P hP => ?_
  refine Sat.gate (mul_sat H hn hm hn hB hA) fun Q hQ => ?_
  obtain ⟨b, b1, hb⟩ := is_I_rep hP
  rw [b1, ok_bind]
  cases b with
  | false => exact ⟨fun h => absurd (hb.2 h.1) (by simp), fun _ => Or.inl rfl⟩
  | true =>
    obtain ⟨c, c1, hc⟩ := is_I_rep hQ
    simp only [Bool.not_true, Bool.false_eq_true, if_false]
    rw [c1, ok_bind]
    exact (gate_ite hc).iff ⟨fun h => ⟨hb.1 rfl, h⟩, fun h => h.2⟩

theorem check_kernel_basis_gate {tm : TrimMask} (H : ∀ k, (tm k).Sat U fun _ => True) {A B : BM} {M : Matrix (Fin m) (Fin n) (ZMod 2)}
    {d : ℕ} {K : Matrix (Fin d) (Fin n) (ZMod 2)} (hm : 0 < m) (hA : Rep A M) (hB : Rep B K) :
    Gate U (check_kernel_basis tm A B) (∀ i, ∀ a : Fin m, (a : ℕ) < (m - 1) / 64 * 64 → M.mulVec (K i) a = 0) := by
  unfold check_kernel_basis
  rw [hB.nr]
  refine (forUp_gate (C := fun i => ∀ h : i < d, ∀ a : Fin m, (a : ℕ) < (m - 1) / 64 * 64 → M.mulVec (K ⟨i, h⟩) a = 0) fun i hi => ?_).iff
    ⟨fun h i => h i i.2 i.2, fun h i _ hi => h ⟨i, hi⟩⟩
  obtain ⟨r, hr, hv⟩ := hB.at hi
  rw [hr, ok_bind]
  refine Sat.gate (mulVec_sat H hm hA hv) fun w hw => ?_
  obtain ⟨e, e1, he⟩ := BV.eqScalar_zero hw
  rw [e1, ok_bind]
  exact gate_ite (he.trans ⟨fun h _ => h, fun h => h hi⟩)

end BM
end Spffl
