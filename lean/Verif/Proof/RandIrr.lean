import Verif.Model.RandIrr
import Verif.Proof.Random
import Verif.Proof.FpFactor
import Verif.Proof.F2nFactor

/-!
# Random irreducible polynomials
-/

namespace Spffl
open Res Polynomial CPoly

namespace Random
variable {β : Type} {draw : ℕ → Res (Option β × ℕ)}

theorem search_none {w : ℕ} : ∀ (n pos : ℕ), (∀ k, k < n → draw (pos + k * w) = ok (none, pos + (k + 1) * w)) →
    search draw n pos = timeout
  | 0, _, _ => rfl
  | n + 1, pos, h => by
    have h0 := h 0 (by omega)
    simp only [zero_mul, add_zero, zero_add, one_mul] at h0
    unfold search
    rw [h0, ok_bind]
    exact search_none n _ fun k hk => by
      have := h (k + 1) (by omega)
      rw [show pos + w + k * w = pos + (k + 1) * w by ring, show pos + w + (k + 1) * w = pos + (k + 1 + 1) * w by ring]
      exact this

theorem search_some {w : ℕ} {P : β → Prop} : ∀ (n k pos : ℕ), k < n →
    (∀ j, j < k → draw (pos + j * w) = ok (none, pos + (j + 1) * w)) →
    (∃ r, draw (pos + k * w) = ok (some r, pos + (k + 1) * w) ∧ P r) →
    ∃ r, search draw n pos = ok (r, pos + (k + 1) * w) ∧ P r
  | 0, _, _, hk, _, _ => by omega
  | n + 1, 0, pos, _, _, h => by
    obtain ⟨r, h, hr⟩ := h
    simp only [zero_mul, add_zero, zero_add, one_mul] at h
    refine ⟨r, ?_, hr⟩
    unfold search
    rw [h, ok_bind]
    simp
  | n + 1, k + 1, pos, hk, hj, h => by
    have h0 := hj 0 (by omega)
    simp only [zero_mul, add_zero, zero_add, one_mul] at h0
    unfold search
    rw [h0, ok_bind]
    have e : ∀ j, pos + w + j * w = pos + (j + 1) * w := fun j => by ring
    obtain ⟨r, h1, h2⟩ := search_some n k (pos + w) (by omega) (fun j hj' => by rw [e, e]; exact hj (j + 1) (by omega))
      (by rw [e, e]; exact h)
    exact ⟨r, by rw [e] at h1; exact h1, h2⟩

section Round
variable {α K : Type} [Field K] {O : CoefOps α} {rep : α → K → Prop} {ord : K → K → Prop}

/-- One round: refused, or the polynomial made monic. -/
theorem irr_round_ok (H : CoefRef False O rep ord) {isIrr : CPoly α → Res Bool} {zero : α} (hz : rep zero 0) {r : CPoly α}
    {F : K[X]} (hr : PRep rep r F) {d : ℕ} (hd : F.natDegree = d) (hF : F ≠ 0)
    (hI : (isIrr r).Ok (fun b => b = true ↔ Irreducible F)) (q : ℕ) :
    (¬ (Irreducible F ∧ F.coeff 0 ≠ 0) → irr_round O isIrr zero d (r, q) = ok (none, q)) ∧
    (Irreducible F ∧ F.coeff 0 ≠ 0 → ∃ s, irr_round O isIrr zero d (r, q) = ok (some s, q) ∧
      PRep rep s (F * C F.leadingCoeff⁻¹)) := by
  obtain ⟨c, hc, hcr⟩ := sat_false.1 (get_coeff_sat H hr 0)
  obtain ⟨z, hz', hzr⟩ := sat_false.1 (H.eq hcr hz)
  obtain ⟨b, hb, hbr⟩ := hI
  obtain ⟨l, hl, hlr⟩ := sat_false.1 (get_coeff_sat H hr d)
  have hlead : F.coeff d = F.leadingCoeff := by rw [← hd]; rfl
  rw [hlead] at hlr
  obtain ⟨s, hs, hsr⟩ := sat_false.1 (sdiv_sat H hr hlr (mul_inv_cancel₀ (leadingCoeff_ne_zero.2 hF)))
  have hc' : get_coeff O r 0 = ok c := hc
  unfold irr_round
  simp only [hc', ok_bind, hz', hb]
  constructor
  · intro h
    by_cases h0 : F.coeff 0 = 0
    · rw [if_pos (hzr.2 h0)]
    · rw [if_neg (fun e => h0 (hzr.1 e)), if_neg (fun e => h ⟨hbr.1 e, h0⟩)]
  · intro h
    refine ⟨s, ?_, hsr⟩
    rw [if_neg (fun e => h.2 (hzr.1 e)), if_pos (hbr.2 h.1), hl, ok_bind, hs, ok_bind]

end Round

end Random
end Spffl
