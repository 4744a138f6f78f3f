/-
Search for irreducible polynomials over F2 and the totient of a polynomial over F2.
-/
import Verif.Proof.F2Factor
import Verif.Proof.F2Text
import Verif.Base.PolyCount

set_option linter.unusedSectionVars false

namespace Spffl
open Res Polynomial
namespace FacInfo

theorem mem_toMs {R : Type} {l : List (R × ℕ)} {q : R × ℕ} (h : q ∈ l) (hq : 0 < q.2) : q.1 ∈ toMs l := by
  induction l with
  | nil => simp at h
  | cons p l ih =>
    have : toMs (p :: l) = Multiset.replicate p.2 p.1 + toMs l := by simp [toMs]
    rw [this, Multiset.mem_add]
    rcases List.mem_cons.mp h with rfl | h
    · left; exact Multiset.mem_replicate.mpr ⟨by omega, rfl⟩
    · right; exact ih h

end FacInfo

namespace F2P
variable {U : Prop}

/-! ### find_irreducible -/

theorem nval_odd (p : (ZMod 2)[X]) : nval p % 2 = 1 ↔ p.coeff 0 ≠ 0 := by
  have := testBit_nval p 0
  rw [Nat.testBit_zero] at this
  rw [← decide_eq_true_iff (p := p.coeff 0 ≠ 0), ← this]; simp

theorem coeff_zero_of_irreducible {p : (ZMod 2)[X]} (h : Irreducible p) (hd : 2 ≤ p.natDegree) : p.coeff 0 ≠ 0 := by
  intro h0
  have hX : X ∣ p := X_dvd_iff.mpr h0
  have := (irreducible_X.associated_of_dvd h hX)
  have h1 := natDegree_eq_of_degree_eq (degree_eq_degree_of_associated this)
  rw [natDegree_X] at h1; omega

theorem natDegree_of_nval {p : (ZMod 2)[X]} {d : ℕ} (h1 : 2 ^ d ≤ nval p) (h2 : nval p < 2 ^ (d + 1)) : p.natDegree = d := by
  have hp : p ≠ 0 := by rintro rfl; have := Nat.two_pow_pos d; simp [nval] at h1
  have a := pow_le_nval hp
  have b := nval_lt_pow p
  have c1 : p.natDegree < d + 1 := (Nat.pow_lt_pow_iff_right (by norm_num : 1 < 2)).mp (a.trans_lt h2)
  have c2 : d < p.natDegree + 1 := (Nat.pow_lt_pow_iff_right (by norm_num : 1 < 2)).mp (h1.trans_lt b)
  omega

theorem findLoop_sat {tm : TrimMask} (H : ∀ k, (tm k).Sat U fun _ => True) {d : ℕ} (hmax : (d : Int) ≤ INT_MAX)
    {w : (ZMod 2)[X]} (hw : Irreducible w) (hwd : w.natDegree = d) (hw0 : w.coeff 0 ≠ 0) :
    ∀ (k : ℕ) (rv : F2P), Canon rv → 2 ^ d ≤ nval (toPoly rv) → (toPoly rv).coeff 0 ≠ 0 →
    (∀ p : (ZMod 2)[X], Irreducible p → p.natDegree = d → p.coeff 0 ≠ 0 → nval (toPoly rv) ≤ nval p) →
    2 ^ (d + 1) < nval (toPoly rv) + 2 * k →
    (findLoop tm d k rv).Sat U (fun r => Canon r ∧ Irreducible (toPoly r) ∧ (toPoly r).natDegree = d ∧ (toPoly r).coeff 0 ≠ 0 ∧
      ∀ p : (ZMod 2)[X], Irreducible p → p.natDegree = d → p.coeff 0 ≠ 0 → nval (toPoly r) ≤ nval p)
  | 0, rv, _, _, _, hle, hk => by
    have h1 := hle w hw hwd hw0
    have h2 := nval_lt_pow w
    rw [hwd] at h2; omega
  | k + 1, rv, hc, hge, h0, hle, hk => by
    have h1 := hle w hw hwd hw0
    have h2 := nval_lt_pow w
    rw [hwd] at h2
    have hd : (toPoly rv).natDegree = d := natDegree_of_nval hge (by omega)
    unfold findLoop
    rw [find_degree_ok, ok_bind, hd, if_pos rfl]
    refine (is_irreducible_sat H hc (by rw [hd]; exact hmax)).bind fun b hb => ?_
    split
    · rename_i hbt
      rw [Sat_ok]
      exact ⟨hc, hb.mp hbt, hd, h0, hle⟩
    · rename_i hbf
      obtain ⟨r1, hr1, n1, c1⟩ := increment_ok hc
      obtain ⟨r2, hr2, n2, c2⟩ := increment_ok c1
      rw [hr1, ok_bind, hr2, ok_bind]
      have n12 : nval (toPoly r2) = nval (toPoly rv) + 2 := by omega
      have hodd := (nval_odd (toPoly rv)).mpr h0
      refine findLoop_sat H hmax hw hwd hw0 k r2 c2 (by omega) ((nval_odd _).mp (by omega)) (fun p hp hpd hp0 => ?_) (by omega)
      have h3 := hle p hp hpd hp0
      have h4 : nval (toPoly rv) ≠ nval p := by
        intro h; rw [nval_inj h] at hb; exact hbf (hb.mpr hp)
      have h5 := (nval_odd p).mpr hp0
      omega

theorem find_irreducible_sat {tm : TrimMask} (H : ∀ k, (tm k).Sat U fun _ => True) {d : ℕ} (hd : 1 ≤ d) (hmax : (d : Int) ≤ INT_MAX) :
    (find_irreducible tm d).Sat U (fun r => Canon r ∧ Irreducible (toPoly r) ∧ (toPoly r).natDegree = d ∧ (toPoly r).coeff 0 ≠ 0 ∧
      ∀ p : (ZMod 2)[X], Irreducible p → p.natDegree = d → p.coeff 0 ≠ 0 → nval (toPoly r) ≤ nval p) := by
  unfold find_irreducible
  obtain ⟨r1, hr1, t1, c1⟩ := set_bit_new (ps := zero) canon_zero.ne_nil (n := d) (by
    have := coeff_toPoly zero d
    rw [toPoly_zero] at this
    cases h : bitAt zero d with
    | false => rfl
    | true => rw [h] at this; simp at this)
  rw [toPoly_zero, zero_add] at t1
  obtain ⟨r2, hr2, t2, c2⟩ := set_bit_new (ps := r1) (c1 canon_zero).ne_nil (n := 0) (by
    have := coeff_toPoly r1 0
    rw [t1, coeff_X_pow, if_neg (by omega)] at this
    cases h : bitAt r1 0 with
    | false => rfl
    | true => rw [h] at this; simp at this)
  rw [t1, pow_zero] at t2
  rw [hr1, ok_bind, show ((0 : ℕ) : Int) = 0 from rfl] at *
  rw [hr2, ok_bind, if_neg (by omega), Int.toNat_natCast]
  have hn : nval (toPoly r2) = 2 ^ d + 1 := by
    rw [t2]
    have := nval_add_pow (p := X ^ d) (n := 0) (by rw [coeff_X_pow, if_neg (by omega)])
    rw [pow_zero, pow_zero] at this
    rw [this]
    have := nval_add_pow (p := 0) (n := d) (by simp)
    rw [zero_add] at this
    rw [this]; simp [nval]
  have hw : ∃ w : (ZMod 2)[X], Irreducible w ∧ w.natDegree = d ∧ w.coeff 0 ≠ 0 := by
    rcases Nat.lt_or_ge 1 d with h | h
    · obtain ⟨w, -, h2, h3⟩ := exists_irreducible_degree (K := ZMod 2) (n := d) (by omega)
      exact ⟨w, h2, h3, coeff_zero_of_irreducible h2 (by omega)⟩
    · refine ⟨X + C 1, irreducible_of_degree_eq_one (degree_X_add_C 1), by rw [natDegree_X_add_C]; omega, by simp⟩
  obtain ⟨w, w1, w2, w3⟩ := hw
  refine findLoop_sat H hmax w1 w2 w3 _ r2 (c2 (c1 canon_zero)) (by omega) ((nval_odd _).mp ?_) (fun p hp hpd hp0 => ?_) ?_
  · rw [hn]
    obtain ⟨k, rfl⟩ : ∃ k, d = k + 1 := ⟨d - 1, by omega⟩
    rw [pow_succ]; omega
  · have h1 := pow_le_nval hp.ne_zero
    rw [hpd] at h1
    have h2 := (nval_odd p).mpr hp0
    obtain ⟨k, rfl⟩ : ∃ k, d = k + 1 := ⟨d - 1, by omega⟩
    rw [pow_succ] at h1 hn; omega
  · rw [hn, pow_succ]; omega

theorem find_irreducible_throw (tm : TrimMask) {d : Int} (hd : d < 1) : find_irreducible tm d = throw := by
  unfold find_irreducible
  rcases lt_or_eq_of_le (show d ≤ 0 by omega) with h | rfl
  · have : set_bit zero d = throw := by unfold set_bit; rw [if_pos h]
    rw [this]; rfl
  · rfl

/-! ### totient -/

theorem two_pow_lt {k : ℕ} (h : 2 ^ k < 2 ^ 31) : k < 31 := (Nat.pow_lt_pow_iff_right (by norm_num : 1 < 2)).mp h

theorem totientStep_ok {p : F2P × Int} {q : (ZMod 2)[X] × ℕ} (h : FacInfo.PRel PRep p q) (hq : 0 < q.2) {rv : ℕ} (hrv : 0 < rv)
    (hlt : rv * (2 ^ (q.1.natDegree * (q.2 - 1)) * (2 ^ q.1.natDegree - 1)) < 2 ^ 31 - 1) (hd : 0 < q.1.natDegree) :
    totientStep p rv = ok ((rv * (2 ^ (q.1.natDegree * (q.2 - 1)) * (2 ^ q.1.natDegree - 1)) : ℕ) : Int) := by
  obtain ⟨⟨hc, ht⟩, he⟩ := h
  set d := q.1.natDegree with hdd
  have hA : 0 < 2 ^ (d * (q.2 - 1)) := Nat.two_pow_pos _
  have hB : 2 ^ 1 ≤ 2 ^ d := Nat.pow_le_pow_right (by norm_num) hd
  generalize hAe : 2 ^ (d * (q.2 - 1)) = A at *
  generalize hBe : 2 ^ d = B at *
  have hAB : A * (B - 1) < 2 ^ 31 - 1 := (Nat.le_mul_of_pos_left _ hrv).trans_lt hlt
  have hA1 : A < 2 ^ 31 - 1 := (Nat.le_mul_of_pos_right _ (by omega)).trans_lt hAB
  have hB1 : B - 1 < 2 ^ 31 - 1 := (Nat.le_mul_of_pos_left _ hA).trans_lt hAB
  have hd31 : d < 31 := two_pow_lt (by rw [hBe]; omega)
  have hs31 : d * (q.2 - 1) < 31 := two_pow_lt (by rw [hAe]; omega)
  have he31 : q.2 - 1 < 31 := (Nat.le_mul_of_pos_left _ hd).trans_lt hs31
  unfold totientStep
  rw [find_degree_ok, ok_bind, ht, ← hdd, he]
  rw [show isub ((q.2 : ℕ) : Int) 1 = ok (((q.2 - 1 : ℕ)) : Int) by
    rw [show isub ((q.2 : ℕ) : Int) 1 = chk (((q.2 : ℕ) : Int) - 1) from rfl, chk_ok (by unfold InInt; omega)]
    congr 1; omega, ok_bind]
  rw [show imul (d : Int) ((q.2 - 1 : ℕ) : Int) = ok ((d * (q.2 - 1) : ℕ) : Int) by
    rw [show imul (d : Int) ((q.2 - 1 : ℕ) : Int) = chk ((d : Int) * ((q.2 - 1 : ℕ) : Int)) from rfl, ← Nat.cast_mul, chk_ok (by unfold InInt; omega)], ok_bind,
    ishl_one hs31, ok_bind, ishl_one hd31, ok_bind]
  rw [show ((2 : Int) ^ d) = ((B : ℕ) : Int) by rw [← hBe]; push_cast; rfl,
    show ((2 : Int) ^ (d * (q.2 - 1))) = ((A : ℕ) : Int) by rw [← hAe]; push_cast; rfl]
  rw [show isub ((B : ℕ) : Int) 1 = ok ((B - 1 : ℕ) : Int) by
    rw [show isub ((B : ℕ) : Int) 1 = chk ((B : Int) - 1) from rfl, chk_ok (by unfold InInt; omega)]
    congr 1; omega, ok_bind]
  rw [show imul (A : Int) ((B - 1 : ℕ) : Int) = chk ((A : Int) * ((B - 1 : ℕ) : Int)) from rfl, ← Nat.cast_mul, chk_ok (by unfold InInt; omega), ok_bind]
  rw [show imul (rv : Int) ((A * (B - 1) : ℕ) : Int) = chk ((rv : Int) * ((A * (B - 1) : ℕ) : Int)) from rfl, ← Nat.cast_mul, chk_ok (by unfold InInt; omega)]

theorem totientFold_ok : ∀ (fs : List (F2P × Int)) (l : List ((ZMod 2)[X] × ℕ)) (rv : ℕ), List.Forall₂ (FacInfo.PRel PRep) fs l →
    (∀ q ∈ l, 0 < q.2) → (∀ q ∈ l, 0 < q.1.natDegree) → 0 < rv →
    rv * (l.map fun q => 2 ^ (q.1.natDegree * (q.2 - 1)) * (2 ^ q.1.natDegree - 1)).prod < 2 ^ 31 - 1 →
    fs.foldlM (fun rv p => totientStep p rv) (rv : Int) =
      ok ((rv * (l.map fun q => 2 ^ (q.1.natDegree * (q.2 - 1)) * (2 ^ q.1.natDegree - 1)).prod : ℕ) : Int)
  | [], [], rv, _, _, _, _, _ => by simp
  | p :: fs, q :: l, rv, h, h1, h2, hrv, hlt => by
    cases h with
    | cons ha hb =>
    have hq := h1 q (by simp)
    have hd := h2 q (by simp)
    rw [List.map_cons, List.prod_cons, ← mul_assoc] at hlt ⊢
    have hP : 0 < (l.map fun q => 2 ^ (q.1.natDegree * (q.2 - 1)) * (2 ^ q.1.natDegree - 1)).prod := by
      rw [Nat.pos_iff_ne_zero, ne_eq, List.prod_eq_zero_iff]
      intro hm
      obtain ⟨r, hr, hr0⟩ := List.mem_map.mp hm
      have h3 : 2 ^ 1 ≤ 2 ^ r.1.natDegree := Nat.pow_le_pow_right (by norm_num) (h2 r (by simp [hr]))
      rcases Nat.mul_eq_zero.mp hr0 with h | h
      · exact absurd h (Nat.two_pow_pos _).ne'
      · omega
    have h4 : rv * (2 ^ (q.1.natDegree * (q.2 - 1)) * (2 ^ q.1.natDegree - 1)) < 2 ^ 31 - 1 := (Nat.le_mul_of_pos_right _ hP).trans_lt hlt
    rw [List.foldlM_cons, show (bind : Res Int → _ → _) = Res.bind from rfl] at *
    rw [totientStep_ok ha hq hrv h4 hd]
    have h5 : 0 < rv * (2 ^ (q.1.natDegree * (q.2 - 1)) * (2 ^ q.1.natDegree - 1)) := by
      have h3 : 2 ^ 1 ≤ 2 ^ q.1.natDegree := Nat.pow_le_pow_right (by norm_num) hd
      exact Nat.mul_pos hrv (Nat.mul_pos (Nat.two_pow_pos _) (by omega))
    exact totientFold_ok fs l _ hb (fun r hr => h1 r (by simp [hr])) (fun r hr => h2 r (by simp [hr])) h5 hlt

/-- the list of factors `factor` delivers determines the totient -/
theorem totient_of_list {f : (ZMod 2)[X]} {N : Multiset (ZMod 2)[X]} (hout : FactOut true f N) {l : List ((ZMod 2)[X] × ℕ)}
    (hs : FacInfo.Sorted nval l) (hl : FacInfo.toMs l = N) (hp : ∀ q ∈ l, 0 < q.2) :
    (∀ q ∈ l, Irreducible q.1) ∧
    polyTotient f = (l.map fun q => 2 ^ (q.1.natDegree * (q.2 - 1)) * (2 ^ q.1.natDegree - 1)).prod := by
  have hirr : ∀ q ∈ l, Irreducible q.1 := fun q hq => hout.irr rfl _ (hl ▸ FacInfo.mem_toMs hq (hp q hq))
  refine ⟨hirr, ?_⟩
  have h := polyTotient_list hirr hp ?_
  · rw [← hout.prod, ← hl, FacInfo.toMs_prod, h, ZMod.card]
  · refine (List.Pairwise.imp_of_mem ?_ hs)
    intro a b ha hb hab
    rw [Irreducible.coprime_iff_not_dvd (hirr a ha)]
    intro hdvd
    have := dvd_antisymm_F2 hdvd (((hirr a ha).associated_of_dvd (hirr b hb) hdvd).symm.dvd)
    rw [this] at hab; exact absurd hab (lt_irrefl _)

theorem totient_sat {tm : TrimMask} (H : ∀ k, (tm k).Sat U fun _ => True) {f : F2P} (hfc : Canon f) (hpos : 0 < (toPoly f).natDegree)
    (hlt : polyTotient (toPoly f) < 2 ^ 31 - 1) (hmax : ((toPoly f).natDegree : Int) ≤ INT_MAX) :
    (totient tm f).Sat U (fun r => r = (polyTotient (toPoly f) : Int)) := by
  unfold totient
  refine (factor_sat H hfc hpos hmax).bind fun fi hfi => ?_
  obtain ⟨N, ⟨l, hl, hs, hN, hp⟩, hout⟩ := hfi
  obtain ⟨hirr, ht⟩ := totient_of_list hout hs hN hp
  have := totientFold_ok fi.facs l 1 hl.1 hp (fun q hq => (hirr q hq).natDegree_pos) one_pos (by rw [one_mul, ← ht]; exact hlt)
  rw [one_mul, ← ht] at this
  rw [Nat.cast_one] at this
  rw [this, Sat_ok]

theorem totient_ub {tm : TrimMask} (H : ∀ k, (tm k).Sat True fun _ => True) {f : F2P} (hfc : Canon f) (hirr : Irreducible (toPoly f))
    (hd : (toPoly f).natDegree = 31) : totient tm f = ub := by
  unfold totient
  have h := factor_sat H hfc (by omega) (by rw [hd]; decide)
  cases hfac : factor tm f with
  | throw => rw [hfac] at h; exact h.elim
  | timeout => rw [hfac] at h; exact h.elim
  | ub => rfl
  | ok fi =>
    rw [hfac, Sat_ok] at h
    obtain ⟨N, ⟨l, hl, hs, hN, hp⟩, hout⟩ := h
    have hN1 : N = {toPoly f} := by
      obtain ⟨a, ha⟩ := Multiset.card_pos_iff_exists_mem.mp (hout.card_pos (by omega))
      obtain ⟨N', rfl⟩ := Multiset.exists_cons_of_mem ha
      have hprod := hout.prod
      rw [Multiset.prod_cons] at hprod
      have hN0 : N' = 0 := by
        by_contra hne
        obtain ⟨b, hb⟩ := Multiset.exists_mem_of_ne_zero hne
        rcases hirr.isUnit_or_isUnit hprod.symm with hu | hu
        · exact not_unit_of_natDegree_pos (hout.pos a (Multiset.mem_cons_self _ _)) hu
        · exact not_unit_of_natDegree_pos (hout.pos b (Multiset.mem_cons_of_mem hb)) (isUnit_of_dvd_unit (Multiset.dvd_prod hb) hu)
      subst hN0
      rw [Multiset.prod_zero, mul_one] at hprod
      rw [hprod]; rfl
    have hmem : ∀ q ∈ l, q.1 = toPoly f := fun q hq => by
      have := FacInfo.mem_toMs hq (hp q hq)
      rw [hN, hN1] at this; exact Multiset.mem_singleton.mp this
    obtain ⟨q, l', rfl⟩ : ∃ q l', l = q :: l' := by
      cases l with
      | nil => rw [hN1] at hN; simp [FacInfo.toMs] at hN
      | cons q l' => exact ⟨q, l', rfl⟩
    have hq2 : q.2 = 1 := by
      have hc : (FacInfo.toMs (q :: l')).card = 1 := by rw [hN, hN1]; simp
      have : FacInfo.toMs (q :: l') = Multiset.replicate q.2 q.1 + FacInfo.toMs l' := by simp [FacInfo.toMs]
      rw [this, Multiset.card_add, Multiset.card_replicate] at hc
      have := hp q (by simp)
      omega
    have hq1 := hmem q (by simp)
    obtain ⟨p, fs, hfs⟩ : ∃ p fs, fi.facs = p :: fs := by
      have := hl.1
      cases hh : fi.facs with
      | nil => rw [hh] at this; cases this
      | cons p fs => exact ⟨p, fs, rfl⟩
    have hl1 := hl.1
    rw [hfs] at hl1
    cases hl1 with
    | cons h1 h2 =>
    have hstep : totientStep p 1 = ub := by
      unfold totientStep
      rw [find_degree_ok, ok_bind, h1.1.2, hq1, hd, h1.2, hq2]
      rfl
    rw [ok_bind, hfs, List.foldlM_cons, hstep]; rfl

end F2P
end Spffl
