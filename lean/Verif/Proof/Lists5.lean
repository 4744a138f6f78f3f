/-
list_elements.cpp: affine and projective space over the fields of the library.
-/
import Verif.Proof.Lists4

set_option linter.unusedSectionVars false

namespace Spffl
open Res Polynomial List
open CPoly (PRep)

namespace Lists

theorem enum_fun {α K : Type} [Inhabited K] {rep : α → K → Prop} {lt : α → α → Prop} {r : List α} (h : Enum rep lt r (fun _ => True)) {q : ℕ}
    (hq : Nat.card K = q) :
    ∃ E : ℕ → K, (∀ i, i < q → At r i (fun e => rep e (E i))) ∧ Function.Bijective (fun i : Fin q => E i) := by
  obtain ⟨⟨L, h1, h2, h3⟩, -⟩ := h
  have hl : L.length = q := by rw [← hq, length_of_mem h2 h3, card_true]
  have hE : ∀ i (hi : i < L.length), L.getD i default = L[i] := fun i hi => by simp [hi]
  refine ⟨fun i => L.getD i default, fun i hi => ?_, ?_, ?_⟩
  · have hr : i < r.length := by rw [h1.length_eq]; omega
    refine ⟨r[i], List.getElem?_eq_getElem hr, ?_⟩
    dsimp only
    rw [hE i (by omega)]
    exact h1.get hr (by omega)
  · intro a b hab
    dsimp only at hab
    rw [hE a (by omega), hE b (by omega)] at hab
    exact Fin.ext ((h2.getElem_inj_iff).mp hab)
  · intro x
    obtain ⟨i, hi, rfl⟩ := List.getElem_of_mem ((h3 x).mpr trivial)
    exact ⟨⟨i, by omega⟩, hE i hi⟩

section f2
open F2P
variable {m : (ZMod 2)[X]} {mm : F2P} {tm : TrimMask}

theorem f2_q (hm : toPoly mm = m) (hd : m.natDegree ≤ 30) : (do let d ← F2P.find_degree mm; ishl 1 d : Res Int) = ok ((2 ^ m.natDegree : ℕ) : Int) := by
  rw [find_degree_ok, ok_bind, hm, ishl_one (by omega), two_pow_cast]

theorem f2_An_ok (hmc : Canon mm) (hm : toPoly mm = m) (hm0 : m ≠ 0) (hd : m.natDegree ≤ 30) {n : ℕ} (hn : 0 < n) (hn' : n ≤ 2147483647)
    (hpow : PowOk (2 ^ m.natDegree) n) :
    (f2_polymod_An_list tm mm n).Ok fun A => ∃ M : Matrix (Fin ((2 ^ m.natDegree) ^ n)) (Fin n) (AdjoinRoot m), MRep (F2Mod.Rep m) A M ∧
      Function.Bijective M := by
  obtain ⟨Fq, h1, h2⟩ := f2_all_ok (tm := tm) hmc hm hm0 hd
  obtain ⟨E, h3, h4⟩ := enum_fun h2 (F2nP.natCard_eq hm0)
  unfold f2_polymod_An_list
  rw [h1, find_degree_ok, ok_bind, hm, ishl_one (by omega), ok_bind, two_pow_cast]
  exact (sat_false.mp (an_list_sat (Fqr := ok Fq) (Nat.two_pow_pos _) hpow hn hn' h3)).mono fun A hA => ⟨_, hA, affine_bij h4⟩

theorem f2_Pn_ok [hirr : Fact (Irreducible m)] (hmc : Canon mm) (hm : toPoly mm = m) (hd : m.natDegree ≤ 30) {n : ℕ} (hn' : n < 2147483647)
    (hpow : PowOk (2 ^ m.natDegree) n) :
    (f2_polymod_Pn_list tm mm n).Ok fun A => ∃ M : Matrix (Fin (∑ k ∈ Finset.range (n + 1), (2 ^ m.natDegree) ^ k)) (Fin (n + 1)) (AdjoinRoot m),
      MRep (F2Mod.Rep m) A M ∧ (∀ r, M r ≠ 0) ∧ ∀ v, v ≠ 0 → ∃! r, ∃ c : (AdjoinRoot m)ˣ, v = c • M r := by
  have hm0 := hirr.out.ne_zero
  obtain ⟨Fq, h1, h2⟩ := f2_all_ok (tm := tm) hmc hm hm0 hd
  obtain ⟨E, h3, h4⟩ := enum_fun h2 (F2nP.natCard_eq hm0)
  unfold f2_polymod_Pn_list
  rw [h1, find_degree_ok, ok_bind, hm, ishl_one (by omega), ok_bind, two_pow_cast]
  have hq : 2 ≤ 2 ^ m.natDegree := Nat.le_self_pow hirr.out.natDegree_pos.ne' 2
  refine (sat_false.mp (pn_list_sat (Fqr := ok Fq) hq hpow hn' h3 ?_ ?_)).mono fun A hA => ⟨projM E _ n, mrep_projM hA, projM_ne E _ n, projM_unique h4⟩
  · unfold F2Mod.prime_subfield_element; rw [ofInt_zero]; exact (f2n_zero hmc hm).sat
  · unfold F2Mod.prime_subfield_element; rw [ofInt_one]; exact (f2n_one hmc hm).sat

end f2

section fp
variable {p : ℕ} [hp : Fact p.Prime] {mm : CPoly IntMod} {M : (ZMod p)[X]} {d : CMod IntMod}

theorem fp_card (hM : M ≠ 0) : Nat.card (AdjoinRoot M) = p ^ M.natDegree := by rw [natCard_adjoin hM, ZMod.card]

theorem fp_An_ok (h : p ≤ 46341) (hmm : PRep (IntMod.Rep p) mm M) (hM : M ≠ 0) (hmax : M.natDegree ≤ 2147483647) (hpow : PowOk p M.natDegree)
    {n : ℕ} (hn : 0 < n) (hn' : n ≤ 2147483647) (hpow' : PowOk (p ^ M.natDegree) n) :
    (fp_polymod_An_list d mm n).Ok fun A => ∃ B : Matrix (Fin ((p ^ M.natDegree) ^ n)) (Fin n) (AdjoinRoot M),
      MRep (CMod.Rep (IntMod.Rep p) M) A B ∧ Function.Bijective B := by
  obtain ⟨Fq, h1, h2⟩ := fp_all_ok (d := d) h hmm hM hmax hpow
  obtain ⟨E, h3, h4⟩ := enum_fun h2 (fp_card hM)
  obtain ⟨c, c1, c2⟩ := fp_c0 hmm
  unfold fp_polymod_An_list
  rw [h1, c1, ok_bind, c2, ← hmm.deg, int_power_ok hpow hmax, ok_bind]
  exact (sat_false.mp (an_list_sat (Fqr := ok Fq) (Nat.pow_pos hp.out.pos) hpow' hn hn' h3)).mono fun A hA => ⟨_, hA, affine_bij h4⟩

theorem fp_psub (h : p ≤ 46341) (hmm : PRep (IntMod.Rep p) mm M) (hM : M ≠ 0) {v : Int} (hv : InInt v) :
    (fp_static_psub v mm).Ok fun r => CMod.Rep (IntMod.Rep p) M r (v : AdjoinRoot M) := by
  unfold fp_static_psub
  refine sat_false.mp ((CPoly.psub_sat (FpP.fref h).ref hmm hv).bind fun r hr => (CMod.mk'_sat (FpP.fref h).ref hr hmm hM).mono fun s hs => ?_)
  convert hs using 1
  simp

theorem fp_Pn_ok (h : p ≤ 46341) (hmm : PRep (IntMod.Rep p) mm M) [hirr : Fact (Irreducible M)] (hmax : M.natDegree ≤ 2147483647)
    (hpow : PowOk p M.natDegree) {n : ℕ} (hn' : n < 2147483647) (hpow' : PowOk (p ^ M.natDegree) n) :
    (fp_polymod_Pn_list d mm n).Ok fun A => ∃ B : Matrix (Fin (∑ k ∈ Finset.range (n + 1), (p ^ M.natDegree) ^ k)) (Fin (n + 1)) (AdjoinRoot M),
      MRep (CMod.Rep (IntMod.Rep p) M) A B ∧ (∀ r, B r ≠ 0) ∧ ∀ v, v ≠ 0 → ∃! r, ∃ c : (AdjoinRoot M)ˣ, v = c • B r := by
  have hM := hirr.out.ne_zero
  obtain ⟨Fq, h1, h2⟩ := fp_all_ok (d := d) h hmm hM hmax hpow
  obtain ⟨E, h3, h4⟩ := enum_fun h2 (fp_card hM)
  obtain ⟨c, c1, c2⟩ := fp_c0 hmm
  unfold fp_polymod_Pn_list
  rw [h1, c1, ok_bind, c2, ← hmm.deg, int_power_ok hpow hmax, ok_bind]
  have hq : 2 ≤ p ^ M.natDegree := hp.out.two_le.trans (Nat.le_self_pow hirr.out.natDegree_pos.ne' p)
  refine (sat_false.mp (pn_list_sat (Fqr := ok Fq) hq hpow' hn' h3 ?_ ?_)).mono fun A hA => ⟨projM E _ n, mrep_projM hA, projM_ne E _ n, projM_unique h4⟩
  · simpa using (fp_psub h hmm hM (v := 0) (by decide)).sat
  · simpa using (fp_psub h hmm hM (v := 1) (by decide)).sat

end fp
end Lists
end Spffl
