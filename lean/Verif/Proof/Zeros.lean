/-
Proofs about the counting of zeros.
-/
import Verif.Model.Zeros
import Verif.Proof.MvPoly
import Verif.Proof.MvHom
import Verif.Proof.CoefInst
import Verif.Proof.Lists5
import Verif.Proof.F2Poly2

namespace Spffl
open Res Polynomial
namespace Zeros
open MvPoly Lists F2P
variable {m : (ZMod 2)[X]} {n : ℕ}

theorem psub_zero {mm : F2P} (hc : Canon mm) (hm : toPoly mm = m) (hm0 : m ≠ 0) :
    ∃ r, F2Mod.prime_subfield_element 0 mm = ok r ∧ F2Mod.Rep m r 0 := by
  obtain ⟨r, e, h, -⟩ := F2Mod.mk'_ok F2P.canon_zero.good hc hm hm0
  exact ⟨r, e, by simpa using h⟩

theorem psub_one {mm : F2P} (hc : Canon mm) (hm : toPoly mm = m) (hm0 : m ≠ 0) :
    ∃ r, F2Mod.prime_subfield_element 1 mm = ok r ∧ F2Mod.Rep m r 1 := by
  obtain ⟨r, e, h, -⟩ := F2Mod.mk'_ok F2P.canon_one.good hc hm hm0
  exact ⟨r, e, by simpa using h⟩

/-- the coefficients of f2apolist before the embedding -/
abbrev Rep2 (c : F2Mod) (z : ZMod 2) : Prop := F2Mod.Rep (X + 1) c (AdjoinRoot.of (X + 1) z)

theorem rep2_toPoly {c : F2Mod} {z : ZMod 2} (h : Rep2 c z) : toPoly c.residue = C z := by
  have hd : (X + 1 : (ZMod 2)[X]).degree = 1 := by rw [← C_1]; exact degree_X_add_C 1
  refine F2Mod.mk_inj h.deg ?_ (h.val.trans (AdjoinRoot.mk_C z).symm)
  rw [hd]; exact lt_of_le_of_lt degree_C_le (by norm_num)

theorem embed_ok {zero one : F2Mod} (h0 : F2Mod.Rep m zero 0) (h1 : F2Mod.Rep m one 1) {B : ℕ} : ∀ {p : List (Mono F2Mod)}
    {L : List ((Fin n →₀ ℕ) × ZMod 2)}, List.Forall₂ (MvPoly.MRep Rep2 B) p L →
    (embed zero one p).Ok (fun r => List.Forall₂ (MvPoly.MRep (F2Mod.Rep m) B) r (L.map fun t => (t.1, AdjoinRoot.of m t.2)))
  | _, _, .nil => by rw [embed, Ok_ok]; exact .nil
  | _, _, .cons (a := t) (b := b) (l₁ := p) (l₂ := L) ht hp => by
    have hz := rep2_toPoly ht.1
    have hne := ht.1.cr.ne_nil
    rw [embed, F2Mod.eqInt, F2P.eqInt_ok hne, ok_bind, F2Mod.eqInt, F2P.eqInt_ok hne, hz]
    have hb : b.2 = 0 ∨ b.2 = 1 := by have : ∀ z : ZMod 2, z = 0 ∨ z = 1 := by decide
                                      exact this _
    rcases hb with hb | hb
    · rw [hb, if_pos (by simp), ok_bind]
      refine (embed_ok h0 h1 hp).bind fun r hr => ?_
      rw [Ok_ok, List.map_cons]
      exact .cons ⟨by simpa [hb] using h0, ht.2⟩ hr
    · rw [hb, if_neg (by simp), ok_bind, if_pos (by simp), ok_bind]
      refine (embed_ok h0 h1 hp).bind fun r hr => ?_
      rw [Ok_ok, List.map_cons]
      exact .cons ⟨by simpa [hb] using h1, ht.2⟩ hr

theorem den_map {L : List ((Fin n →₀ ℕ) × ZMod 2)} {F : MvPolynomial (Fin n) (ZMod 2)} (h : Den L F) :
    Den (L.map fun t => (t.1, AdjoinRoot.of m t.2)) (MvPolynomial.map (AdjoinRoot.of m) F) := by
  obtain ⟨h1, h2, h3⟩ := h
  have e : (L.map fun t => (t.1, AdjoinRoot.of m t.2)).map Prod.fst = L.map Prod.fst := by rw [List.map_map]; rfl
  refine ⟨by rw [e]; exact h1, fun t ht => ?_, fun k hk => ?_⟩
  · obtain ⟨s, hs, rfl⟩ := List.mem_map.1 ht
    rw [MvPolynomial.coeff_map, h2 s hs]
  · rw [e] at hk
    rw [MvPolynomial.coeff_map, h3 k hk, map_zero]

theorem forall2_of_vrep {v : TVec F2Mod} {x : Fin n → AdjoinRoot m} (h : VRep (F2Mod.Rep m) v x) :
    List.Forall₂ (F2Mod.Rep m) v (List.ofFn x) := by
  rw [List.forall₂_iff_get]
  refine ⟨by rw [h.1, List.length_ofFn], fun i h1 h2 => ?_⟩
  obtain ⟨e, he, hr⟩ := h.at (j := i) (by rw [← h.1]; exact h1)
  rw [List.getElem?_eq_getElem h1, Option.some_inj] at he
  simpa [he] using hr

open Classical in
theorem count_ok (hm0 : m ≠ 0) (hn : 0 < n) {B N : ℕ} {p : List (Mono F2Mod)} {F : MvPolynomial (Fin n) (AdjoinRoot m)}
    (hp : MvPoly.Rep (F2Mod.Rep m) B p F) {A : TMat F2Mod} {M : Matrix (Fin N) (Fin n) (AdjoinRoot m)} (hA : MRep (F2Mod.Rep m) A M)
    (hN : N ≤ 2147483647) {zero : F2Mod} (h0 : F2Mod.Rep m zero 0) :
    count p A zero = ok ((Nat.card {r : Fin N // MvPolynomial.eval (M r) F = 0} : ℕ) : Int) := by
  obtain ⟨L, h1, h3⟩ := hp
  let Q : ℕ → Prop := fun i => ∃ h : i < N, MvPolynomial.eval (M ⟨i, h⟩) F = 0
  have hQ : Nat.card {r : Fin N // MvPolynomial.eval (M r) F = 0} = ((Finset.range N).filter Q).card := by
    rw [← Nat.subtype_card (p := Q) ((Finset.range N).filter Q) (by
      intro i; simp only [Finset.mem_filter, Finset.mem_range, and_iff_right_iff_imp]; exact fun h => h.1)]
    exact Nat.card_congr ⟨fun r => ⟨r.1.1, r.1.2, r.2⟩, fun i => ⟨⟨i.1, i.2.1⟩, i.2.2⟩, fun r => rfl, fun i => rfl⟩
  have key : (count p A zero).Sat False (fun r => r = (((Finset.range N).filter Q).card : Int)) := by
    unfold count
    rw [hA.shape.nr]
    refine forUp_sat (fun k r => r = (((Finset.range k).filter Q).card : Int)) (Nat.zero_le _) (by simp) fun i s _ hi hs => ?_
    unfold TMat.row
    rw [if_pos (by rw [hA.shape.nr]; exact hi)]
    refine (rd_sat (hA.rowRep hi)).bind fun v hv => ?_
    refine (eval_sat (F2Mod.cops_ref hm0) hn (forall2_of_vrep hv) h1 h3).bind fun y hy => ?_
    rw [F2Mod.eq_ok hy h0, ok_bind, Finset.range_add_one, Finset.filter_insert]
    by_cases hz : MvPolynomial.eval (M ⟨i, hi⟩) F = 0
    · rw [if_pos (by simpa using hz), if_pos (show Q i from ⟨hi, hz⟩), Finset.card_insert_of_notMem (by simp), hs]
      have hc : ((Finset.range i).filter Q).card ≤ i := (Finset.card_filter_le _ _).trans (by simp)
      have := iadd_nat (x := ((Finset.range i).filter Q).card) (y := 1) (N := N) (by omega) hN
      rw [Nat.cast_one] at this
      rw [this, Sat_ok]
    · rw [if_neg (by simpa using hz), if_neg (show ¬ Q i from fun ⟨_, h⟩ => hz h), hs, Sat_ok]
  obtain ⟨r, e, hr⟩ := sat_false.1 key
  rw [e, hr, hQ]

/-- A polynomial in another number of variables than there are coordinates ends the program. -/
theorem count_len (hm0 : m ≠ 0) {N k : ℕ} (hN : 0 < N) (hn : 0 < n) (hk : k ≠ n) {t : Mono F2Mod} {p : List (Mono F2Mod)} (ht : t.expts.length = k)
    {A : TMat F2Mod} {M : Matrix (Fin N) (Fin n) (AdjoinRoot m)} (hA : MRep (F2Mod.Rep m) A M) {zero : F2Mod} :
    count (t :: p) A zero = throw := by
  obtain ⟨v, hr, hv⟩ := hA.rowRep hN
  obtain ⟨e, he, hc⟩ := hv.at hn
  obtain ⟨s, hs, _⟩ := sat_false.1 ((F2Mod.cops_ref hm0).sub hc hc)
  unfold count forUp
  rw [hA.shape.nr]
  obtain ⟨N, rfl⟩ := Nat.exists_eq_succ_of_ne_zero hN.ne'
  have h1 : MvPoly.eval F2Mod.cops (t :: p) v = throw := by
    unfold MvPoly.eval
    rw [show rd v 0 = ok e by unfold rd; rw [he], ok_bind, hs, ok_bind, evalSum, monoEval, if_pos (by rw [ht, hv.1]; exact hk)]
    rfl
  rw [show N.succ - 0 = N + 1 from rfl, loopUp]
  unfold TMat.row
  rw [if_pos (by rw [hA.shape.nr]; omega), show rd A.rows 0 = ok v by unfold rd; rw [hr], ok_bind, h1]
  rfl

theorem eval_smul {R : Type} [CommRing R] {F : MvPolynomial (Fin n) R} {d : ℕ} (hF : F.IsHomogeneous d) (c : R) (x : Fin n → R) :
    MvPolynomial.eval (fun i => c * x i) F = c ^ d * MvPolynomial.eval x F := by
  rw [MvPolynomial.eval_eq', MvPolynomial.eval_eq', Finset.mul_sum]
  refine Finset.sum_congr rfl fun k hk => ?_
  have hd : ∑ i, k i = d := by
    have := hF (MvPolynomial.mem_support_iff.1 hk)
    rw [← this, Finsupp.weight_apply, Finsupp.sum_fintype _ _ (by simp)]
    simp
  simp_rw [mul_pow]
  rw [Finset.prod_mul_distrib, Finset.prod_pow_eq_pow_sum, hd]
  ring

end Zeros
end Spffl
