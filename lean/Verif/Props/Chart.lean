/-
Properties C121 and C122: the Möbius function, the number of irreducible polynomials of a degree over F2, and the list of them.
-/
import Verif.Proof.Chart
import Mathlib.FieldTheory.Finite.GaloisField

namespace Spffl.Props
open Res Polynomial F2P
namespace Charts
open Spffl.Chart

/-! ### C121 -/

/-- The Möbius function of the absolute value, for every int but 0 and INT_MIN. -/
theorem C121_moebius (n : Int) (hn : InInt n) (h0 : n ≠ 0) (hm : n ≠ INT_MIN) :
    calc_moebius n = ok (ArithmeticFunction.moebius n.natAbs) := by
  have h3 : n.natAbs ≤ 2147483647 := by unfold InInt at hn; unfold INT_MIN at hm; omega
  by_cases h : n.natAbs = 1
  · rcases Int.natAbs_eq n with e | e <;> rw [h] at e <;> subst e <;> decide +kernel
  · exact calc_moebius_int (by omega) h3

example : calc_moebius 30 = ok (-1) ∧ calc_moebius (-35) = ok 1 ∧ calc_moebius 12 = ok 0 := by
  refine ⟨?_, ?_, ?_⟩ <;> decide +kernel

/-- At 0 the answer is 1, where the Möbius function is 0; INT_MIN cannot be negated. -/
theorem C121_violated_moebius : calc_moebius 0 = ok 1 ∧ ArithmeticFunction.moebius 0 = 0 ∧ calc_moebius INT_MIN = ub := by
  refine ⟨by decide +kernel, by simp, by decide +kernel⟩

theorem card_eq (n : ℕ) : Nat.card {f : (ZMod 2)[X] // Irreducible f ∧ f.natDegree = n} = irrCount (ZMod 2) n :=
  Nat.card_congr (Equiv.subtypeEquivRight fun _ => ⟨fun h => ⟨monic_of_ne h.1.ne_zero, h⟩, fun h => h.2⟩)

/-- The number of irreducible polynomials of degree n over F2, for all n up to 30. -/
theorem C121_count (n : ℕ) (h1 : 1 ≤ n) (h2 : n ≤ 30) :
    num_irreds_deg_is n = ok ((Nat.card {f : (ZMod 2)[X] // Irreducible f ∧ f.natDegree = n} : ℕ) : Int) := by
  rw [card_eq]; exact num_irreds_deg_is_ok h1 h2

example : num_irreds_deg_is 8 = ok 30 ∧ num_irreds_deg_is 12 = ok 335 := by refine ⟨?_, ?_⟩ <;> decide +kernel

/-- The number of irreducible polynomials over F2 whose degrees divide n. -/
theorem C121_count_dvd (n : ℕ) (h1 : 1 ≤ n) (h2 : n ≤ 30) :
    num_irreds_deg_divides n = ok ((Nat.card {f : (ZMod 2)[X] // Irreducible f ∧ f.natDegree ∣ n} : ℕ) : Int) := by
  rw [num_irreds_deg_divides_ok h1 h2, ← card_irr_dvd (K := ZMod 2) (by omega)]
  congr 2
  exact Nat.card_congr (Equiv.subtypeEquivRight fun _ => ⟨fun h => h.2, fun h => ⟨monic_of_ne h.1.ne_zero, h⟩⟩)

/-- That number is the number of rows the chart of a field with 2^n elements needs: its elements have so many minimal polynomials. -/
theorem C121_rows (n : ℕ) (h1 : 1 ≤ n) (h2 : n ≤ 30) (K : Type) [Field K] [Fintype K] [Algebra (ZMod 2) K] (hK : Fintype.card K = 2 ^ n) :
    num_irreds_deg_divides n = ok ((Set.range fun a : K => minpoly (ZMod 2) a).ncard : Int) := by
  have hfr : Module.finrank (ZMod 2) K = n := by
    have := Module.card_eq_pow_finrank (K := ZMod 2) (V := K)
    rw [ZMod.card, hK] at this
    exact (Nat.pow_right_injective le_rfl this).symm
  rw [C121_count_dvd n h1 h2, ← Nat.card_coe_set_eq]
  congr 2
  refine Nat.card_congr (Equiv.subtypeEquivRight fun f => ?_)
  constructor
  · rintro ⟨hi, hd⟩
    have hdvd := hi.natDegree_dvd_iff_dvd_X_pow_card_pow_sub_X.1 hd
    rw [Nat.card_eq_fintype_card, ZMod.card] at hdvd
    have hs : (f.map (algebraMap (ZMod 2) K)).Splits := by
      have h := FiniteField.X_pow_card_sub_X_ne_zero K (Fintype.one_lt_card (α := K))
      refine Splits.of_dvd ?_ h ?_
      · simpa using (FiniteField.isSplittingField_sub K (ZMod 2)).splits
      · have := map_dvd (mapRingHom (algebraMap (ZMod 2) K)) hdvd
        simpa [hK] using this
    obtain ⟨a, ha⟩ := Splits.exists_eval_eq_zero hs (by rw [degree_map]; exact (degree_pos_of_irreducible hi).ne')
    refine ⟨a, ?_⟩
    rw [eval_map_algebraMap] at ha
    exact (minpoly.eq_of_irreducible_of_monic hi ha (monic_of_ne hi.ne_zero)).symm
  · rintro ⟨a, rfl⟩
    have ha : IsIntegral (ZMod 2) a := Algebra.IsIntegral.isIntegral a
    exact ⟨minpoly.irreducible ha, by have := minpoly.degree_dvd ha; rwa [hfr] at this⟩

/-- Such fields exist for every degree, e.g. 3, where there are 4 rows. -/
noncomputable example : ∃ (_ : Fintype (GaloisField 2 3)), Fintype.card (GaloisField 2 3) = 2 ^ 3 ∧ num_irreds_deg_divides 3 = ok 4 := by
  refine ⟨Fintype.ofFinite _, ?_, by decide +kernel⟩
  rw [Fintype.card_eq_nat_card, GaloisField.card 2 3 (by norm_num)]

/-- Degree 0 divides by zero, and at degree 31 the sum overflows. -/
theorem C121_violated_range : num_irreds_deg_is 0 = ub ∧ num_irreds_deg_is 31 = ub := by
  refine ⟨?_, ?_⟩ <;> decide +kernel

/-! ### C122 -/

/-- The list for a degree up to 29 has all irreducible polynomials of the degree, each once, in ascending order of their bits, for
whatever the mask of `trim` of the bit vectors is. -/
theorem C122_list (m : ℕ → BitVec 64) (n : ℕ) (h1 : 1 ≤ n) (h2 : n ≤ 29) :
    ∃ L, irreds (fun k => ok (m k)) n = ok L ∧ (∀ a ∈ L, Canon a) ∧ (L.Pairwise fun a b => nval (toPoly a) < nval (toPoly b)) ∧
      (L.map toPoly).Nodup ∧ ∀ p : (ZMod 2)[X], p ∈ L.map toPoly ↔ Irreducible p ∧ p.natDegree = n := by
  obtain ⟨L, h, h'⟩ := sat_false.1 (irreds_sat (tm := fun k => ok (m k)) (U := False) (fun k => by rw [Sat_ok]; trivial) h1 h2)
  refine ⟨L, h, h'.canon, h'.asc, ?_, h'.mem⟩
  rw [List.Nodup, List.pairwise_map]
  exact h'.asc.imp fun h e => by rw [e] at h; omega

example : irreds (fun _ => ok 5#64) 4 = ok [[0x13#64], [0x19#64], [0x1f#64]] := by decide +kernel

/-- With the mask as the program computes it, the list is as claimed unless behaviour is undefined. -/
theorem C122_list_partial {U : Prop} {tm : TrimMask} (H : ∀ k, (tm k).Sat U fun _ => True) (n : ℕ) (h1 : 1 ≤ n) (h2 : n ≤ 29) :
    (irreds tm n).Sat U fun L => (∀ a ∈ L, Canon a) ∧ (L.Pairwise fun a b => nval (toPoly a) < nval (toPoly b)) ∧
      ∀ p : (ZMod 2)[X], p ∈ L.map toPoly ↔ Irreducible p ∧ p.natDegree = n :=
  (irreds_sat H h1 h2).mono fun _ h => ⟨h.canon, h.asc, h.mem⟩

/-- At degree 30 the number is right, but the last polynomial `(1 << 31) - 1` overflows. -/
theorem C122_violated_30 (tm : TrimMask) : irreds tm 30 = ub := by
  unfold irreds find_irreds
  rw [show (30 : Int) = ((30 : ℕ) : Int) from rfl, num_irreds_deg_is_ok (by norm_num) le_rfl, ok_bind, if_neg (by omega)]
  rw [show ishl 1 ((30 : ℕ) : Int) = ok 1073741824 by decide +kernel, ok_bind, show iadd ((30 : ℕ) : Int) 1 = ok 31 by decide +kernel,
    ok_bind, show ishl 1 31 = ok (-2147483648) by decide +kernel, ok_bind, show isub (-2147483648) 1 = ub by decide +kernel]
  rfl

end Charts
end Spffl.Props
