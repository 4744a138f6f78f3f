import Verif.Proof.CMod
import Verif.Model.FpnMod

/-!
# Residues of polynomials over F_p[t]/(M)
-/

namespace Spffl
open Res Polynomial CPoly

namespace CPoly
variable {α R : Type} [CommRing R] {O : CoefOps α} {rep : α → R → Prop} {ord : R → R → Prop}

/-- Subtracting a polynomial of larger degree is undefined if negating its leading coefficient is. -/
theorem sub_ub (H : CoefRef True O rep ord) {a b : CPoly α} {f g : R[X]} (ha : PRep rep a f) (hb : PRep rep b g)
    (hd : a.degree < b.degree) {c : α} (hc : rd b.coeffs b.degree = ok c) (hn : O.neg c = ub) : sub O a b = ub := by
  have : (sub O a b).Sat True (fun _ => False) := by
    unfold sub
    rw [if_pos hd]
    refine (fillUp_sat (f := fun i _ => do let x ← rd a.coeffs i; let y ← rd b.coeffs i; O.sub x y)
      (P := fun i e => rep e ((f - g).coeff i)) (by omega) (by simp [new]; omega)
      fun i s _ hi _ _ _ => ?_).bind fun cs hh => ?_
    · refine (rd_sat (ha.co i hi)).bind fun x hx => (rd_sat (hb.co i (by omega))).bind fun y hy => ?_
      rw [coeff_sub]; exact H.sub hx hy
    refine (fillUp_sat (f := fun i _ => do let y ← rd b.coeffs i; O.neg y)
      (P := fun i e => i ≠ b.degree) (by omega) (by rw [hh.1]; simp [new]) fun i s hi1 hi2 _ _ _ => ?_).bind fun ds h => ?_
    · by_cases hi : i = b.degree
      · rw [hi, hc, ok_bind, hn]; trivial
      · exact (rd_sat (hb.co i hi2)).bind fun y hy => (H.neg hy).mono fun _ _ => hi
    · obtain ⟨e, _, he⟩ := h.2.1 b.degree (by omega) (by omega)
      exact absurd rfl he
  cases h : sub O a b with
  | ub => rfl
  | ok r => rw [h] at this; exact this.elim
  | throw => rw [h] at this; exact this.elim
  | timeout => rw [h] at this; exact this.elim

theorem mod_swap (O : CoefOps α) (ng : α → Res α) (a b : CPoly α) : mod (swapNeg O ng) a b = mod O a b := by
  unfold mod; rw [quot_and_rem_swap]

end CPoly

namespace CMod
variable {α : Type} (O : CoefOps α) (ng : α → Res α)

theorem mk'_swap (r m : CPoly α) : mk' (swapNeg O ng) r m = mk' O r m := by
  unfold mk'; rw [mod_swap]

theorem psub_swap (a : CMod α) (v : Int) : psub (swapNeg O ng) a v = psub O a v := by
  unfold psub; simp only [CPoly.psub_swap, mk'_swap]

theorem check_swap (a b : CMod α) : check_moduli (swapNeg O ng) a b = check_moduli O a b := by
  unfold check_moduli; rw [CPoly.eq_swap]

theorem add_swap (a b : CMod α) : add (swapNeg O ng) a b = add O a b := by
  unfold add; simp only [check_swap, CPoly.add_swap, mk'_swap]

theorem mul_swap (a b : CMod α) : mul (swapNeg O ng) a b = mul O a b := by
  unfold mul; simp only [check_swap, CPoly.mul_swap, mk'_swap]

theorem sub_swap (a b : CMod α) (h : b.residue.degree ≤ a.residue.degree) : sub (swapNeg O ng) a b = sub O a b := by
  unfold sub; simp only [check_swap, CPoly.sub_swap O ng _ _ h, mk'_swap]

theorem eq_swap (a b : CMod α) : eq (swapNeg O ng) a b = eq O a b := by
  unfold eq; simp only [CPoly.eq_swap]

theorem mulRes_swap (m : CPoly α) : mulRes (swapNeg O ng) m = mulRes O m := by
  funext a b; unfold mulRes; simp only [CPoly.mul_swap, mod_swap]

theorem exp_swap (a : CMod α) {e : Int} (he : 0 ≤ e) : exp (swapNeg O ng) a e = exp O a e := by
  unfold exp expLoop
  simp only [psub_swap, eq_swap, mulRes_swap, if_neg (not_lt.2 he)]

end CMod
end Spffl
