/-
Correctness of the random-element models: for every bit source, the result as a function of the words drawn.
-/
import Verif.Model.Random
import Verif.Proof.CMod
import Verif.Proof.F2Factor

namespace Spffl
open Res Polynomial

namespace Random
open CPoly

theorem bit_test (w : BitVec 32) : ((w >>> 17) &&& 1#32 ≠ 0#32) ↔ w.getLsbD 17 = true := by
  rw [BitVec.and_one_eq_setWidth_ofBool_getLsbD, BitVec.getLsbD_ushiftRight]
  cases w.getLsbD 17 <;> decide

/-- the bit drawn at position `k` -/
def bitOf (src : Src) (k : ℕ) : ZMod 2 := if (src k).getLsbD 17 then 1 else 0

/-- the monic polynomial of degree `n` with the given lower coefficients -/
noncomputable def monicOf {R : Type} [CommRing R] (n : ℕ) (v : ℕ → R) : R[X] :=
  X ^ n + ∑ i ∈ Finset.range n, C (v i) * X ^ i

theorem f2_poly_random_ok (src : Src) (deg pos : ℕ) :
    (f2_poly_random src deg pos).Ok (fun s => F2P.Canon s.1 ∧
      F2P.toPoly s.1 = monicOf deg (fun i => bitOf src (pos + (deg - 1 - i))) ∧ s.2 = pos + deg) := by
  unfold f2_poly_random
  rw [if_neg (by omega)]
  have hz : ∀ n, F2P.bitAt F2P.zero n = false := fun n => by
    have := F2P.toPoly_zero
    have h2 := F2P.coeff_toPoly F2P.zero n
    rw [this, coeff_zero] at h2
    by_contra hc
    rw [Bool.not_eq_false] at hc
    rw [hc] at h2; simp at h2
  refine (F2P.set_bit_bits F2P.canon_zero.ne_nil deg).bind fun r ⟨h1, h2⟩ => ?_
  have h2 := h2 (Or.inl F2P.canon_zero)
  rw [Int.toNat_natCast]
  refine (forDown_ok (fun i (s : F2P × ℕ) => F2P.Canon s.1 ∧ s.2 = pos + (deg - i) ∧
    ∀ t, F2P.bitAt s.1 t = (decide (t = deg) || (decide (i ≤ t) && decide (t < deg) && (src (pos + (deg - 1 - t))).getLsbD 17)))
    (Nat.zero_le _) ⟨h2, by simp, fun t => ?_⟩ ?_).mono ?_
  · rw [h1, hz]
    by_cases h : deg ≤ t <;> simp [h]
  · rintro i ⟨f, q⟩ - hi ⟨c1, c2, c3⟩
    simp only at c1 c2 c3
    unfold bitStep
    have hq : q = pos + (deg - 1 - i) := by omega
    subst hq
    by_cases hb : (src (pos + (deg - 1 - i))).getLsbD 17 = true
    · rw [if_pos ((bit_test _).mpr hb)]
      refine (F2P.set_bit_bits c1.ne_nil i).bind fun r ⟨h1, h2⟩ => ?_
      rw [Ok_ok]
      refine ⟨h2 (Or.inl c1), by simp; omega, fun t => ?_⟩
      simp only
      rw [h1, c3]
      by_cases e : t = i
      · subst e; simp [hb, hi]
      · have : (i + 1 ≤ t) ↔ (i ≤ t) := by omega
        simp [e, this]
    · rw [if_neg (by rw [bit_test]; exact hb), Ok_ok]
      refine ⟨c1, by simp; omega, fun t => ?_⟩
      simp only
      rw [c3]
      by_cases e : t = i
      · subst e; simp at hb; simp [hb]
      · have : (i + 1 ≤ t) ↔ (i ≤ t) := by omega
        simp [this]
  · rintro ⟨f, q⟩ ⟨c1, c2, c3⟩
    refine ⟨c1, ?_, by simpa using c2⟩
    ext t
    rw [F2P.coeff_toPoly]
    simp only at c3
    rw [c3]
    unfold monicOf bitOf
    rw [coeff_add, coeff_X_pow, finset_sum_coeff]
    simp only [coeff_C_mul, coeff_X_pow, mul_ite, mul_one, mul_zero]
    rw [Finset.sum_ite_eq]
    simp only [Finset.mem_range]
    by_cases e : t = deg
    · subst e; simp
    · by_cases h : t < deg <;> simp [e, h]

theorem monicOf_coeff {R : Type} [CommRing R] (n : ℕ) (v : ℕ → R) (t : ℕ) :
    (monicOf n v).coeff t = if t = n then 1 else if t < n then v t else 0 := by
  unfold monicOf
  rw [coeff_add, coeff_X_pow, finset_sum_coeff]
  simp only [coeff_C_mul, coeff_X_pow, mul_ite, mul_one, mul_zero]
  rw [Finset.sum_ite_eq]
  simp only [Finset.mem_range]
  by_cases e : t = n
  · subst e; simp
  · by_cases h : t < n <;> simp [e, h]

theorem monicOf_natDegree {R : Type} [CommRing R] [Nontrivial R] (n : ℕ) (v : ℕ → R) : (monicOf n v).natDegree = n := by
  refine le_antisymm (natDegree_le_iff_coeff_eq_zero.mpr fun t ht => ?_) (le_natDegree_of_ne_zero ?_)
  · rw [monicOf_coeff, if_neg (by omega), if_neg (by omega)]
  · rw [monicOf_coeff, if_pos rfl]; exact one_ne_zero

theorem f2_polymod_random_ok (src : Src) {m : F2P} (hm : F2P.Canon m) (hd : 1 ≤ (F2P.toPoly m).natDegree) (pos : ℕ) :
    (f2_polymod_random src m pos).Ok (fun s =>
      F2Mod.Rep (F2P.toPoly m) s.1 (AdjoinRoot.mk _ (monicOf (F2P.toPoly m).natDegree
        (fun i => bitOf src (pos + ((F2P.toPoly m).natDegree - 1 - i))))) ∧ s.2 = pos + (F2P.toPoly m).natDegree) := by
  unfold f2_polymod_random
  rw [F2P.find_degree_ok, ok_bind, if_neg (by omega)]
  refine (f2_poly_random_ok src _ pos).bind fun s ⟨h1, h2, h3⟩ => ?_
  refine (F2Mod.mk'_ok h1.good hm rfl (by rintro h; rw [h] at hd; simp at hd)).bind fun a ⟨h4, _⟩ => ?_
  rw [Ok_ok]
  exact ⟨by rw [← h2]; exact h4, h3⟩

section Generic
variable {U : Prop} {α R : Type} [CommRing R] {O : CoefOps α} {rep : α → R → Prop} {ord : R → R → Prop}
open Classical in
/-- what becomes of the leading coefficient -/
noncomputable def fix (x : R) : R := if x = 0 then 1 else x

theorem fix_ne [Nontrivial R] (x : R) : fix x ≠ 0 := by
  unfold fix; split
  · exact one_ne_zero
  · assumption

/-- A coefficient is set without comparing any other, if the leading coefficient is not set to zero. -/
theorem set_coeff_keep (heq : ∀ {a b x y}, rep a x → rep b y → (O.eq a b).Sat U (fun r => r = true ↔ x = y))
    (hp0 : ∀ {a x}, rep a x → (O.psub a 0).Sat U (fun r => rep r 0)) {a : CPoly α} {f : R[X]} (ha : PRep rep a f) (n : ℕ) {c : α} {x : R}
    (hc : rep c x) (hx : x ≠ 0 ∨ n < a.degree) : (set_coeff O a n c).Sat U (fun r => PRep rep r (f.update n x)) := by
  have hup : ∀ i, (f.update n x).coeff i = if i = n then x else f.coeff i := fun i => by
    rw [coeff_update_apply]
  unfold set_coeff
  rw [if_neg (by omega)]
  refine (rd_sat ha.c0).bind fun c0 h0 => (hp0 h0).bind fun z hz => ?_
  split
  · rename_i h
    rw [Int.toNat_natCast]
    unfold set_coeff_grow
    refine (fillUp_sat (f := fun i _ => rd a.coeffs i) (P := fun i e => rep e ((f.update n x).coeff i)) (by omega)
      (by simp [new]; omega) fun i s _ hi _ _ _ => ?_).bind fun cs hh16 => ?_
    · rw [hup, if_neg (by omega)]; exact rd_sat (ha.co i hi)
    obtain ⟨h1, h2, _⟩ := hh16
    refine (fillUp_sat (f := fun _ _ => ok z) (P := fun i e => rep e ((f.update n x).coeff i)) (by omega)
      (by rw [h1]; simp [new]) fun i s hi1 hi2 _ _ _ => ?_).bind fun ds hh17 => ?_
    · rw [hup, if_neg (by omega), coeff_eq_zero_of_natDegree_lt (by rw [ha.deg]; omega)]; exact hz
    obtain ⟨h3, h4, h5⟩ := hh17
    have hl : ds.length = n + 1 := by rw [h3, h1]; simp [new]
    rw [wr_ok (by omega), ok_bind]
    have hold : Holds rep (ds.set n c) (n + 1) (f.update n x) := by
      intro i hi
      by_cases e : i = n
      · subst e; exact at_set_self (by omega) (by rw [hup, if_pos rfl]; exact hc)
      · have := join_holds (by omega) h2 h4 h5 h1 i (by omega)
        exact this.congr (List.getElem?_set_ne (Ne.symm e))
    have hdeg : (f.update n x).natDegree ≤ n := by
      rw [natDegree_le_iff_coeff_eq_zero]
      intro i hi
      rw [hup, if_neg (by omega), coeff_eq_zero_of_natDegree_lt (by rw [ha.deg]; omega)]
    refine (heq hc hz).bind fun e he => ?_
    cases e with
    | true => exact absurd (he.mp rfl) (hx.resolve_right (by omega))
    | false =>
      rw [if_neg (by simp), Sat_ok]
      refine ⟨le_antisymm hdeg (le_natDegree_of_ne_zero ?_), hold⟩
      rw [hup, if_pos rfl]
      intro h; simpa using he.mpr h
  · rename_i h
    rw [Int.toNat_natCast]
    unfold set_coeff_in
    have hl := ha.len
    rw [wr_ok (by omega), ok_bind]
    have hold : Holds rep (a.coeffs.set n c) (a.degree + 1) (f.update n x) := by
      intro i hi
      rw [hup]
      by_cases e : i = n
      · subst e; exact at_set_self (by omega) (by rw [if_pos rfl]; exact hc)
      · rw [if_neg e]; exact (ha.co i hi).congr (List.getElem?_set_ne (Ne.symm e))
    have hdeg : (f.update n x).natDegree ≤ a.degree := by
      rw [natDegree_le_iff_coeff_eq_zero]
      intro i hi
      rw [hup, if_neg (by omega), coeff_eq_zero_of_natDegree_lt (by rw [ha.deg]; omega)]
    split
    · rename_i hn
      refine (heq hc hz).bind fun e he => ?_
      cases e with
      | true => exact absurd (he.mp rfl) (hx.resolve_right (by omega))
      | false =>
        rw [if_neg (by simp), Sat_ok]
        refine ⟨le_antisymm hdeg (le_natDegree_of_ne_zero ?_), hold⟩
        rw [hup, if_pos (by simp [hn])]
        intro h; simpa using he.mpr h
    · rename_i hn
      rw [Sat_ok]
      refine ⟨le_antisymm hdeg ?_, hold⟩
      rcases Nat.eq_zero_or_pos a.degree with e | e
      · simp [e]
      · apply le_natDegree_of_ne_zero
        rw [hup, if_neg (Ne.symm hn)]
        have hf : f ≠ 0 := by rintro rfl; have := ha.deg; simp at this; omega
        show f.coeff a.degree ≠ 0
        rw [← ha.deg]; exact leadingCoeff_ne_zero.mpr hf

theorem leadFix_sat (heq : ∀ {a b x y}, rep a x → rep b y → (O.eq a b).Sat U (fun r => r = true ↔ x = y)) {zero one c : α} {x : R} (h0 : rep zero 0) (h1 : rep one 1) (hc : rep c x)
    (deg i : ℕ) : (leadFix O zero one deg i c).Sat U (fun d => rep d (if i = deg then fix x else x)) := by
  unfold leadFix
  split
  · refine (heq hc h0).bind fun b hb => ?_
    unfold fix
    by_cases hx : x = 0
    · rw [if_pos (hb.mpr hx), Sat_ok, if_pos hx]; exact h1
    · rw [if_neg (fun e => hx (hb.mp e)), Sat_ok, if_neg hx]; exact hc
  · exact hc

/-- the coefficients of a random polynomial: the words are used from the leading coefficient down -/
noncomputable def coefOf (v : ℕ → R) (k deg pos i : ℕ) : R :=
  if i = deg then fix (v pos) else v (pos + (deg - i) * k)

theorem poly_random_sat [Nontrivial R]
    (heq : ∀ {a b x y}, rep a x → rep b y → (O.eq a b).Sat U (fun r => r = true ↔ x = y))
    (hp0 : ∀ {a x}, rep a x → (O.psub a 0).Sat U (fun r => rep r 0)) {zero one : α} (h0 : rep zero 0) (h1 : rep one 1)
    (hs0 : (O.sub zero zero).Sat U (fun r => rep r 0)) {draw : ℕ → Res (α × ℕ)} {v : ℕ → R} {k : ℕ}
    (hd : ∀ pos, (draw pos).Sat U (fun s => rep s.1 (v pos) ∧ s.2 = pos + k)) (deg pos : ℕ) :
    (poly_random O zero one draw deg pos).Sat U (fun s => ∃ F : R[X], PRep rep s.1 F ∧ F.natDegree = deg ∧
      (∀ i, i ≤ deg → F.coeff i = coefOf v k deg pos i) ∧ s.2 = pos + (deg + 1) * k) := by
  unfold poly_random
  have hconst : (CPoly.const O zero).Sat U (fun r => PRep rep r (C (0 : R)) ∧ r.degree = 0) := by
    unfold CPoly.const CPoly.recompute_degree
    show (do let zero_1 ← O.sub zero zero; _).Sat U _
    refine hs0.bind fun z hz => ?_
    show (do let d ← (do let e ← O.eq zero z; if e then ok 0 else ok 0); _).Sat U _
    refine Sat.bind (P := fun d => d = 0) ((heq h0 hz).bind fun e _ => by cases e <;> exact rfl) fun d hd => ?_
    rw [Sat_ok]; subst hd
    refine ⟨⟨by simp, fun i hi => ?_⟩, rfl⟩
    have : i = 0 := by simpa using hi
    subst this
    exact ⟨zero, rfl, by simpa using h0⟩
  refine hconst.bind fun rv ⟨hrv, hrv0⟩ => ?_
  refine (forDown_sat (fun i (s : CPoly α × ℕ) => ∃ F : R[X], PRep rep s.1 F ∧
    (∀ j, F.coeff j = if i ≤ j ∧ j ≤ deg then coefOf v k deg pos j else 0) ∧ s.2 = pos + (deg + 1 - i) * k ∧ (i ≤ deg → s.1.degree = deg))
    (Nat.zero_le _) ⟨_, hrv, fun j => ?_, by simp, by omega⟩ ?_).mono ?_
  · rw [if_neg (by omega), map_zero, coeff_zero]
  · rintro i ⟨f, q⟩ - hi ⟨F, c1, c2, c3, c5⟩
    simp only at c1 c2 c3 c5
    subst c3
    refine (hd _).bind fun c ⟨d1, d2⟩ => ?_
    refine (leadFix_sat heq h0 h1 d1 deg i).bind fun d hd' => ?_
    have hne : (if i = deg then fix (v (pos + (deg + 1 - (i + 1)) * k)) else v (pos + (deg + 1 - (i + 1)) * k)) ≠ 0 ∨ i < f.degree := by
      by_cases e : i = deg
      · left; rw [if_pos e]; exact fix_ne _
      · right; rw [c5 (by omega)]; omega
    refine (set_coeff_keep heq hp0 c1 i hd' hne).bind fun r hr => ?_
    rw [Sat_ok]
    have hcoef : ∀ j, (F.update i (if i = deg then fix (v (pos + (deg + 1 - (i + 1)) * k)) else v (pos + (deg + 1 - (i + 1)) * k))).coeff j
        = if i ≤ j ∧ j ≤ deg then coefOf v k deg pos j else 0 := fun j => ?_
    · refine ⟨_, hr, hcoef, ?_, fun _ => ?_⟩
      · simp only
        rw [d2, show deg + 1 - i = (deg + 1 - (i + 1)) + 1 by omega, Nat.succ_mul, Nat.add_assoc]
      · rw [← hr.deg]
        refine le_antisymm (natDegree_le_iff_coeff_eq_zero.mpr fun t ht => ?_) (le_natDegree_of_ne_zero ?_)
        · rw [hcoef, if_neg (by omega)]
        · rw [hcoef, if_pos (by omega)]; unfold coefOf; rw [if_pos rfl]; exact fix_ne _
    · rw [coeff_update_apply, c2]
      by_cases e : j = i
      · subst e
        rw [if_pos (rfl : j = j)]
        conv_rhs => rw [if_pos (show j ≤ j ∧ j ≤ deg by omega)]
        unfold coefOf
        by_cases e : j = deg
        · subst e; simp
        · rw [if_neg e, if_neg e, show deg + 1 - (j + 1) = deg - j by omega]
      · rw [if_neg e]
        have : (i + 1 ≤ j ∧ j ≤ deg) ↔ (i ≤ j ∧ j ≤ deg) := by omega
        simp only [this]
  · rintro ⟨f, q⟩ ⟨F, c1, c2, c3, -⟩
    have c4 : ∀ i, i ≤ deg → F.coeff i = coefOf v k deg pos i := fun i hi => by
      rw [c2, if_pos ⟨Nat.zero_le _, hi⟩]
    refine ⟨F, c1, le_antisymm (natDegree_le_iff_coeff_eq_zero.mpr fun t ht => ?_) (le_natDegree_of_ne_zero ?_), c4, c3⟩
    · rw [c2, if_neg (by omega)]
    · rw [c4 deg le_rfl]; unfold coefOf; rw [if_pos rfl]; exact fix_ne _

end Generic

theorem intmod_random_ok (src : Src) {m : ℕ} (hm : 2 ≤ m) (hm' : m ≤ 2147483647) (pos : ℕ) :
    (intmod_random src m pos).Ok (fun s => IntMod.Rep m s.1 ((src pos).toInt : ZMod m) ∧ s.2 = pos + 1) := by
  unfold intmod_random
  rw [if_neg (by omega)]
  have h1 := BitVec.toInt_lt (x := src pos)
  have h2 := BitVec.le_toInt (x := src pos)
  refine (IntMod.mk'_ok (by omega) (by unfold InInt; omega) (by unfold InInt; omega)).bind fun a ha => ?_
  rw [Ok_ok]; exact ⟨ha, rfl⟩

theorem fp_poly_random_ok (src : Src) {p : ℕ} (hp : 2 ≤ p) (hp' : p ≤ 2147483647) (deg pos : ℕ) :
    (fp_poly_random src p deg pos).Ok (fun s => ∃ F : (ZMod p)[X], PRep (IntMod.Rep p) s.1 F ∧ F.natDegree = deg ∧
      (∀ i, i ≤ deg → F.coeff i = coefOf (fun k => ((src k).toInt : ZMod p)) 1 deg pos i) ∧ s.2 = pos + (deg + 1) * 1) := by
  haveI : Fact (1 < p) := ⟨hp⟩
  unfold fp_poly_random
  rw [if_neg (by omega)]
  refine (IntMod.mk'_ok (m := p) (by omega) (by unfold InInt; omega) (by decide)).bind fun z hz => ?_
  refine (IntMod.mk'_ok (m := p) (by omega) (by unfold InInt; omega) (by decide)).bind fun o ho => ?_
  rw [Int.toNat_natCast]
  rw [Int.cast_zero] at hz
  rw [Int.cast_one] at ho
  refine sat_false.mp (poly_random_sat (rep := IntMod.Rep p) ?_ ?_ hz ho ?_
    (fun q => (intmod_random_ok src hp hp' q).sat) deg pos)
  · intro a b x y h h'
    show (IntMod.eq a b).Sat _ _
    rw [IntMod.eq_ok h h', Sat_ok]; simp
  · intro a x h
    show (IntMod.mk' 0 a.modulus).Sat _ _
    rw [h.1]
    refine (IntMod.mk'_ok h.pos (by unfold InInt; omega) (by decide)).sat.mono fun _ hr => ?_
    rwa [Int.cast_zero] at hr
  · have hz1 : z = ⟨0, p⟩ := by
      have := hz.inj (b := ⟨0, p⟩) ⟨rfl, le_rfl, by simp; omega, by simp⟩
      exact this
    subst hz1
    show (IntMod.sub _ _).Sat _ _
    unfold IntMod.sub
    rw [IntMod.check_moduli_ok hz hz, ok_bind]
    simp only
    have e1 : iadd (p : Int) 0 = Res.ok (p : Int) := by
      unfold iadd; rw [chk_ok (by unfold InInt; omega)]; simp
    have e2 : isub (p : Int) 0 = Res.ok (p : Int) := by
      unfold isub; rw [chk_ok (by unfold InInt; omega)]; simp
    rw [e1]
    show (do let d ← isub (p : Int) 0; IntMod.mk' d p).Sat _ _
    rw [e2]
    show (IntMod.mk' (p : Int) p).Sat _ _
    refine (IntMod.mk'_ok (by omega) (by unfold InInt; omega) (by unfold InInt; omega)).sat.mono fun _ hr => ?_
    simpa using hr

/-- the residue drawn at position `k` -/
noncomputable def resOf (src : Src) (m : (ZMod 2)[X]) (k : ℕ) : AdjoinRoot m :=
  AdjoinRoot.mk m (monicOf m.natDegree (fun i => bitOf src (k + (m.natDegree - 1 - i))))

theorem f2n_poly_random_ok (src : Src) {m : F2P} (hm : F2P.Canon m) (hd : 1 ≤ (F2P.toPoly m).natDegree) (deg pos : ℕ) :
    (f2n_poly_random src m deg pos).Ok (fun s => ∃ F : (AdjoinRoot (F2P.toPoly m))[X],
      PRep (F2Mod.Rep (F2P.toPoly m)) s.1 F ∧ F.natDegree = deg ∧
      (∀ i, i ≤ deg → F.coeff i = coefOf (resOf src (F2P.toPoly m)) (F2P.toPoly m).natDegree deg pos i) ∧
      s.2 = pos + (deg + 1) * (F2P.toPoly m).natDegree) := by
  have hm0 : F2P.toPoly m ≠ 0 := by rintro h; rw [h] at hd; simp at hd
  haveI : Nontrivial (AdjoinRoot (F2P.toPoly m)) :=
    AdjoinRoot.nontrivial _ (by intro h; rw [natDegree_eq_zero_iff_degree_le_zero.mpr h.le] at hd; omega)
  unfold f2n_poly_random
  rw [if_neg (by omega)]
  refine (F2Mod.mk'_ok F2P.canon_zero.good hm rfl hm0).bind fun z ⟨hz, _⟩ => ?_
  refine (F2Mod.mk'_ok F2P.canon_one.good hm rfl hm0).bind fun o ⟨ho, _⟩ => ?_
  rw [Int.toNat_natCast]
  rw [F2P.toPoly_zero, map_zero] at hz
  rw [F2P.toPoly_one, map_one] at ho
  exact sat_false.mp (poly_random_sat (F2Mod.cops_ref hm0).eq (F2Mod.cops_ref hm0).toCmp.psub0 hz ho
    ((F2Mod.cops_ref hm0).toCmp.sub0 hz)
    (fun q => (f2_polymod_random_ok src hm hd q).sat) deg pos)

theorem fp_polymod_random_ok {p : ℕ} [hp : Fact p.Prime] (src : Src) (hp' : p ≤ 46341) {m : CPoly IntMod}
    {M : (ZMod p)[X]} (hm : PRep (IntMod.Rep p) m M) (hd : 1 ≤ M.natDegree) (pos : ℕ) :
    (fp_polymod_random src m pos).Ok (fun s => ∃ F : (ZMod p)[X], F.natDegree = M.natDegree ∧
      (∀ i, i ≤ M.natDegree → F.coeff i = coefOf (fun k => ((src k).toInt : ZMod p)) 1 M.natDegree pos i) ∧
      CMod.Rep (IntMod.Rep p) M s.1 (AdjoinRoot.mk M F) ∧ s.2 = pos + (M.natDegree + 1)) := by
  unfold fp_polymod_random
  have hdeg := hm.deg
  rw [if_neg (by omega)]
  obtain ⟨e, he, hr⟩ := hm.c0
  rw [show rd m.coeffs 0 = ok e by unfold rd; rw [he], ok_bind, hr.1, ← hdeg]
  refine (fp_poly_random_ok src hp.out.two_le (by omega) _ pos).bind fun s ⟨F, h1, h2, h3, h4⟩ => ?_
  refine (sat_false.mp (CMod.mk'_sat (IntMod.cops_ref hp.out.two_le hp') h1 hm
    (by rintro h; rw [h] at hd; simp at hd))).bind fun a ha => ?_
  rw [Ok_ok]
  exact ⟨F, h2, h3, ha, by rw [h4, mul_one]⟩

theorem f2n_polymod_random_ok (src : Src) {im : F2P} (him : F2P.Canon im) (hirr : Irreducible (F2P.toPoly im))
    {om : CPoly F2Mod} {M : (AdjoinRoot (F2P.toPoly im))[X]} (hm : PRep (F2Mod.Rep (F2P.toPoly im)) om M) (hM : M ≠ 0)
    (pos : ℕ) :
    letI := Fact.mk hirr
    (f2n_polymod_random src im om pos).Ok (fun s => ∃ F : (AdjoinRoot (F2P.toPoly im))[X], F.natDegree = M.natDegree ∧
      (∀ i, i ≤ M.natDegree → F.coeff i =
        coefOf (resOf src (F2P.toPoly im)) (F2P.toPoly im).natDegree M.natDegree pos i) ∧
      CMod.Rep (F2Mod.Rep (F2P.toPoly im)) M s.1 (AdjoinRoot.mk M F) ∧
      s.2 = pos + (M.natDegree + 1) * (F2P.toPoly im).natDegree) := by
  letI := Fact.mk hirr
  unfold f2n_polymod_random
  rw [← hm.deg]
  have := hirr.natDegree_pos
  refine (f2n_poly_random_ok src him this _ pos).bind fun s ⟨F, h1, h2, h3, h4⟩ => ?_
  refine (sat_false.mp (CMod.mk'_sat (F2Mod.cops_ref hirr.ne_zero) h1 hm hM)).bind fun a ha => ?_
  rw [Ok_ok]
  exact ⟨F, h2, h3, ha, h4⟩

/-- For a fixed leading coefficient the residue determines the others, and every residue occurs. -/
theorem residue_bijective {K : Type} [Field K] {M : K[X]} (hM : M ≠ 0) (c : K) (x : AdjoinRoot M) :
    ∃! F : K[X], F.natDegree ≤ M.natDegree ∧ F.coeff M.natDegree = c ∧ AdjoinRoot.mk M F = x := by
  obtain ⟨f, rfl⟩ := AdjoinRoot.mk_surjective x
  have hl : M.leadingCoeff ≠ 0 := leadingCoeff_ne_zero.mpr hM
  have key : ∀ F : K[X], (F.natDegree ≤ M.natDegree ∧ F.coeff M.natDegree = c ∧ AdjoinRoot.mk M F = AdjoinRoot.mk M f) ↔
      F = f % M + C (c / M.leadingCoeff) * M := by
    intro F
    constructor
    · rintro ⟨h1, h2, h3⟩
      have e1 : AdjoinRoot.mk M (F - C (c / M.leadingCoeff) * M) = AdjoinRoot.mk M (f % M) := by
        rw [map_sub, map_mul, AdjoinRoot.mk_self, mul_zero, sub_zero, CMod.mk_mod, h3]
      have d2 : (f % M).degree < M.degree := EuclideanDomain.mod_lt _ hM
      have d1 : (F - C (c / M.leadingCoeff) * M).degree < M.degree := by
        rw [degree_eq_natDegree hM, degree_lt_iff_coeff_zero]
        intro t ht
        rw [coeff_sub, coeff_C_mul]
        rcases Nat.lt_or_eq_of_le ht with h | h
        · rw [coeff_eq_zero_of_natDegree_lt (by omega), coeff_eq_zero_of_natDegree_lt h, mul_zero, sub_zero]
        · rw [← h, h2, coeff_natDegree, div_mul_cancel₀ _ hl, sub_self]
      rw [AdjoinRoot.mk_eq_mk] at e1
      have := eq_zero_of_dvd_of_degree_lt e1 (lt_of_le_of_lt (degree_sub_le _ _) (max_lt d1 d2))
      rw [sub_eq_zero] at this
      rw [← this, sub_add_cancel]
    · rintro rfl
      have d2 : (f % M).degree < M.degree := EuclideanDomain.mod_lt _ hM
      refine ⟨natDegree_add_le_of_degree_le ?_ ((natDegree_C_mul_le _ _)), ?_, ?_⟩
      · exact natDegree_le_natDegree d2.le
      · rw [coeff_add, coeff_C_mul, coeff_natDegree, div_mul_cancel₀ _ hl,
          coeff_eq_zero_of_degree_lt (by rwa [← degree_eq_natDegree hM]), zero_add]
      · rw [map_add, map_mul, AdjoinRoot.mk_self, mul_zero, add_zero, CMod.mk_mod]
  exact ⟨_, (key _).mpr rfl, fun G hG => (key G).mp hG⟩

end Random
end Spffl
