/-
Proofs about the model of q_cyclotomic: reduction of rational polynomials to finite fields (qff.cpp).
-/
import Verif.Proof.Cyclo
import Verif.Proof.CoefInst
import Verif.Proof.CMod
import Verif.Proof.F2Text
import Mathlib.Data.ZMod.Basic
import Mathlib.Algebra.Field.ZMod

namespace Spffl
open Res
open Polynomial
open CPoly

namespace Cyclo

/-! ### Setting all coefficients from the top down, starting from a default-constructed object -/

theorem fill_junk {U : Prop} {β : Type} {O : CoefOps β} {j z : β} (hz : O.psub j 0 = ok z) {d : ℕ}
    {c : ℕ → β → Prop} {B : ℕ → CPoly β → Res (CPoly β)}
    (hB : ∀ i, i ≤ d → ∀ rv (Q : CPoly β → Prop), (∀ e, c i e → (set_coeff O rv i e).Sat U Q) → (B i rv).Sat U Q)
    (hne : ∀ e, c d e → O.eq e z = ok false) :
    (forDown (d + 1) 0 ⟨0, [j]⟩ B).Sat U (fun r => r.degree = d ∧ r.coeffs.length = d + 1 ∧
      ∀ i, i ≤ d → At r.coeffs i (c i)) := by
  refine (forDown_sat (fun k (s : CPoly β) => (k = d + 1 → s = ⟨0, [j]⟩) ∧ (k ≤ d → s.degree = d ∧
    s.coeffs.length = d + 1 ∧ (0 < k → s.coeffs[0]? = some j) ∧ ∀ i, k ≤ i → i ≤ d → At s.coeffs i (c i)))
    (by omega) ⟨fun _ => rfl, fun h => by omega⟩ fun k s _ hk hs => ?_).mono fun r hr => ?_
  · refine hB k (by omega) s _ fun e he => ?_
    by_cases hkd : k = d
    · subst hkd
      rw [hs.1 rfl]
      unfold set_coeff
      rw [if_neg (by omega)]
      have : rd [j] 0 = ok j := rfl
      dsimp only
      rw [this, ok_bind, hz, ok_bind]
      rcases Nat.eq_zero_or_pos k with h0 | h0
      · subst h0
        rw [if_neg (by simp)]
        unfold set_coeff_in
        have : wr [j] ((0 : ℕ) : Int).toNat e = ok [e] := rfl
        dsimp only
        rw [this, ok_bind, if_pos (by simp), hne e he, ok_bind, if_neg (by simp), Sat_ok]
        refine ⟨fun h => by omega, fun _ => ⟨rfl, rfl, fun h => by omega, fun i h1 h2 => ?_⟩⟩
        have : i = 0 := by omega
        subst this; exact ⟨e, rfl, he⟩
      · rw [if_pos (by exact_mod_cast h0), Int.toNat_natCast]
        unfold set_coeff_grow
        refine (fillUp_sat (f := fun i _ => rd [j] i) (P := fun i x => x = j) (by simp) (by simp [new])
          fun i s _ hi _ _ _ => ?_).bind fun cs ⟨h1, h2, _⟩ => ?_
        · have : i = 0 := by simp at hi; omega
          subst this; exact rfl
        refine (fillUp_sat (f := fun _ _ => ok z) (P := fun i x => True) (by simp; omega)
          (by rw [h1]; simp [new]) fun i s hi1 hi2 _ _ _ => trivial).bind fun ds ⟨h3, _, h5⟩ => ?_
        have hl : ds.length = k + 1 := by rw [h3, h1]; simp [new]
        rw [wr_ok (by omega), ok_bind, hne e he, ok_bind, if_neg (by simp), Sat_ok]
        refine ⟨fun h => by omega, fun _ => ⟨rfl, by simpa using hl, fun _ => ?_, fun i hi1 hi2 => ?_⟩⟩
        · show (ds.set k e)[0]? = some j
          rw [List.getElem?_set_ne (by omega), h5 0 (by simp)]
          obtain ⟨x, hx, rfl⟩ := h2 0 le_rfl (by simp)
          exact hx
        · have : i = k := by omega
          subst this; exact at_set_self (by omega) he
    · obtain ⟨hd, hl, h0, hat⟩ := hs.2 (by omega)
      unfold set_coeff
      rw [if_neg (by omega)]
      have : rd s.coeffs 0 = ok j := by unfold rd; rw [h0 (by omega)]
      rw [this, ok_bind, hz, ok_bind, if_neg (by omega), Int.toNat_natCast]
      unfold set_coeff_in
      rw [wr_ok (by omega), ok_bind, if_neg (by omega), Sat_ok]
      refine ⟨fun h => by omega, fun _ => ⟨hd, by simpa using hl, fun hk0 => ?_, fun i hi1 hi2 => ?_⟩⟩
      · show (s.coeffs.set k e)[0]? = some j
        rw [List.getElem?_set_ne (by omega)]; exact h0 (by omega)
      · show At (s.coeffs.set k e) i (c i)
        by_cases e' : i = k
        · subst e'; exact at_set_self (by omega) he
        · exact (hat i (by omega) hi2).congr (List.getElem?_set_ne (Ne.symm e'))
  · obtain ⟨h1, h2, _, h3⟩ := hr.2 (by omega)
    exact ⟨h1, h2, fun i hi => h3 i (by omega) hi⟩

theorem get_coeff_le {q : QPoly} {F : ℚ[X]} (hq : PRep IntRat.Rep q F) {i : ℕ} (hi : i ≤ q.degree) :
    (get_coeff IntRat.cops q i).Ok (fun r => IntRat.Rep r (F.coeff i)) := by
  unfold get_coeff
  rw [if_neg (by omega), if_neg (by omega), Int.toNat_natCast]
  exact sat_false.mp (rd_sat (hq.co i (by omega)))

/-! ### Coefficients -/

section Fp
variable {p : ℕ} [hp : Fact p.Prime]

theorem den_cast {x : ℚ} : ((x.den : ℕ) : ZMod p) ≠ 0 ↔ ¬ p ∣ x.den := by
  rw [Ne, ZMod.natCast_eq_zero_iff]

theorem intmod_from_rat_ok (hb : p ≤ 46341) {r : IntRat} {x : ℚ} (hr : IntRat.Rep r x) (hd : ¬ p ∣ x.den) :
    (intmod_from_rat r p).Ok (fun a => IntMod.Rep p a ((x : ℚ) : ZMod p)) := by
  have hI : InInt (p : Int) := by unfold InInt; omega
  unfold intmod_from_rat
  refine (IntMod.mk'_ok hp.out.pos hI hr.inN).bind fun n hn => ?_
  refine (IntMod.mk'_ok hp.out.pos hI hr.inD).bind fun d hd' => ?_
  obtain ⟨e1, e2⟩ := hr.num_eq
  rw [e1] at hn
  rw [e2, Int.cast_natCast] at hd'
  have h0 := den_cast.mpr hd
  have := (IntMod.cops_ref hp.out.two_le hb).div hn hd' (mul_inv_cancel₀ h0)
  rw [Rat.cast_def, div_eq_mul_inv]
  exact sat_false.mp this

theorem intmod_from_rat_throw (hb : p ≤ 46341) {r : IntRat} {x : ℚ} (hr : IntRat.Rep r x) (hd : p ∣ x.den) :
    intmod_from_rat r p = throw := by
  have hI : InInt (p : Int) := by unfold InInt; omega
  unfold intmod_from_rat
  obtain ⟨n, en, hn⟩ := IntMod.mk'_ok hp.out.pos hI hr.inN
  obtain ⟨d, ed, hd'⟩ := IntMod.mk'_ok hp.out.pos hI hr.inD
  rw [en, ok_bind, ed, ok_bind]
  obtain ⟨e1, e2⟩ := hr.num_eq
  rw [e2, Int.cast_natCast, (ZMod.natCast_eq_zero_iff _ _).mpr hd] at hd'
  rcases (IntMod.cops_ref hp.out.two_le hb).div_throw hn hd' (by simp) with h | h
  · exact h
  · exact h.1.elim

theorem fp_from_ok (hb : p ≤ 46341) {q : QPoly} {F : ℚ[X]} (hq : PRep IntRat.Rep q F)
    (hd : ∀ i, ¬ p ∣ (F.coeff i).den) :
    (fp_poly_from_qpoly q p).Ok (fun r => r.degree = q.degree ∧ r.coeffs.length = q.degree + 1 ∧
      ∀ i, i ≤ q.degree → At r.coeffs i (fun a => IntMod.Rep p a ((F.coeff i : ℚ) : ZMod p))) := by
  unfold fp_poly_from_qpoly
  have h0 : fpDefault = ok ⟨0, [⟨0, 1⟩]⟩ := by decide +kernel
  rw [h0, ok_bind]
  apply sat_false.mp
  refine fill_junk (O := IntMod.cops) (z := ⟨0, 1⟩) (by decide +kernel) (fun i hi rv Q h => ?_) fun e he => ?_
  · refine (get_coeff_le hq hi).sat.bind fun c hc => ?_
    exact (intmod_from_rat_ok hb hc (hd i)).sat.bind h
  · show IntMod.eq e ⟨0, 1⟩ = _
    have hm := he.1
    have := hp.out.two_le
    unfold IntMod.eq IntMod.check_modulus
    rw [hm, if_neg (by omega), ok_bind, if_neg (by decide), ok_bind]
    split
    · rfl
    · rw [if_pos (by dsimp only; omega)]

theorem f2n_from_ok {im : F2P} (hc : F2P.Canon im) (hdeg : 1 ≤ (F2P.toPoly im).natDegree) {q : QPoly} {F : ℚ[X]}
    (hq : PRep IntRat.Rep q F) (hd : ∀ i, ¬ 2 ∣ (F.coeff i).den) :
    (f2n_poly_from_qpoly q im).Ok (fun r => r.degree = q.degree ∧ r.coeffs.length = q.degree + 1 ∧
      ∀ i, i ≤ q.degree → At r.coeffs i (fun a => F2Mod.Rep (F2P.toPoly im) a
        (algebraMap (ZMod 2) (AdjoinRoot (F2P.toPoly im)) ((F.coeff i : ℚ) : ZMod 2)))) := by
  have hm0 : F2P.toPoly im ≠ 0 := by intro h; rw [h] at hdeg; simp at hdeg
  unfold f2n_poly_from_qpoly
  have h0 : f2nDefault = ok ⟨0, [⟨F2P.zero, F2P.one⟩]⟩ := by decide +kernel
  rw [h0, ok_bind]
  apply sat_false.mp
  refine fill_junk (O := F2Mod.cops) (z := ⟨F2P.zero, F2P.one⟩) (by decide +kernel) (fun i hi rv Q h => ?_) fun e he => ?_
  · refine (get_coeff_le hq hi).sat.bind fun c hc' => ?_
    refine (intmod_from_rat_ok (p := 2) (by norm_num) hc' (hd i)).sat.bind fun m hm => ?_
    have : (F2Mod.prime_subfield_element m.residue im).Ok (fun a => F2Mod.Rep (F2P.toPoly im) a
        (algebraMap (ZMod 2) (AdjoinRoot (F2P.toPoly im)) ((F.coeff i : ℚ) : ZMod 2))) := by
      unfold F2Mod.prime_subfield_element
      refine (F2Mod.mk'_ok (F2Mod.canon_ofInt _).good hc rfl hm0).mono fun a ha => ?_
      have h2 := ha.1
      rw [F2P.toPoly_ofInt, hm.2.2.2] at h2
      exact h2
    exact this.sat.bind h
  · show F2Mod.eq e ⟨F2P.zero, F2P.one⟩ = _
    unfold F2Mod.eq
    rw [F2Mod.ne_ok he.cr.ne_nil (by decide), ok_bind, F2Mod.ne_ok he.cm.ne_nil (by decide), ok_bind, he.hm]
    split
    · rfl
    · rw [if_pos]
      have : F2P.toPoly im ≠ F2P.toPoly F2P.one := by
        intro h
        rw [h] at hdeg
        unfold F2P.one at hdeg
        rw [F2P.toPoly_ofInt] at hdeg; simp at hdeg
      show (!decide (F2P.toPoly im = F2P.toPoly F2P.one)) = true
      rw [decide_eq_false this]; rfl

/-- fp_polymod_t coefficients without unary minus never run into undefined behaviour -/
theorem fpn_cmp (hb : p ≤ 46341) {M : (ZMod p)[X]} (hM : M ≠ 0) :
    CoefCmp False FpMod.cops (CMod.Rep (IntMod.Rep p) M) (CMod.ordM (fun x y => x.val < y.val) M) :=
  have H := (FpMod.copsNeg_ref hb hM).toCmp
  ⟨H.sub0, H.eq, H.lt, H.gt, H.psub0, H.irrefl, H.asymm, H.total⟩

/-- the coefficients from index `k` upwards -/
theorem exists_tail {K : Type} [CommRing K] (G : K[X]) (k : ℕ) :
    ∃ H : K[X], ∀ i, H.coeff i = if k ≤ i then G.coeff i else 0 := by
  refine ⟨∑ i ∈ Finset.range (G.natDegree + 1), if k ≤ i then C (G.coeff i) * X ^ i else 0, fun i => ?_⟩
  rw [finset_sum_coeff]
  have : ∀ b, (if k ≤ b then C (G.coeff b) * X ^ b else 0 : K[X]).coeff i
      = if i = b then (if k ≤ i then G.coeff i else 0) else 0 := by
    intro b
    by_cases h : i = b
    · subst h; rw [if_pos rfl]; split <;> simp
    · rw [if_neg h]; split
      · rw [coeff_C_mul, coeff_X_pow, if_neg h, mul_zero]
      · simp
  simp only [this]
  rw [Finset.sum_ite_eq]
  split
  · rfl
  · rename_i h
    rw [Finset.mem_range, not_lt] at h
    rw [coeff_eq_zero_of_natDegree_lt (by omega)]; simp

theorem fpn_from_ok (hb : p ≤ 46341) {im : CPoly IntMod} {M : (ZMod p)[X]} (him : PRep (IntMod.Rep p) im M)
    (hM : M ≠ 0) {q : QPoly} {F : ℚ[X]} (hq : PRep IntRat.Rep q F)
    (hd : ∀ i, ¬ p ∣ (F.coeff i).den) (G : (AdjoinRoot M)[X])
    (hG : ∀ i, G.coeff i = algebraMap (ZMod p) (AdjoinRoot M) ((F.coeff i : ℚ) : ZMod p)) :
    (fpn_poly_from_qpoly q im).Ok (fun r => PRep (CMod.Rep (IntMod.Rep p) M) r G) := by
  have H := IntMod.cops_ref hp.out.two_le hb
  have HC := fpn_cmp hb hM
  have hI : InInt (p : Int) := by unfold InInt; omega
  apply sat_false.mp
  unfold fpn_poly_from_qpoly
  refine (rd_sat him.c0).bind fun c0 hc0 => ?_
  dsimp only
  rw [hc0.1]
  refine (IntMod.mk'_ok hp.out.pos hI (r := 0) (by decide)).sat.bind fun z0 hz0 => ?_
  rw [Int.cast_zero] at hz0
  refine (const_sat H hz0).bind fun z1 hz1 => ?_
  refine (CMod.mk'_sat H hz1 him hM).bind fun z2 hz2 => ?_
  rw [C_0, map_zero] at hz2
  refine (const_cmp HC hz2).bind fun rv hrv => ?_
  rw [C_0] at hrv
  refine (forDown_sat (fun k (s : CPoly (CMod IntMod)) => ∃ Hk : (AdjoinRoot M)[X],
    (∀ i, Hk.coeff i = if k ≤ i then G.coeff i else 0) ∧ PRep (CMod.Rep (IntMod.Rep p) M) s Hk)
    (by omega) ⟨0, fun i => ?_, hrv⟩ fun k s _ hk hs => ?_).mono fun r hr => ?_
  · split
    · rename_i h
      rw [hG, coeff_eq_zero_of_natDegree_lt (p := F) (by rw [hq.deg]; omega)]; simp
    · simp
  · obtain ⟨Hk, h1, h2⟩ := hs
    refine (get_coeff_le hq (by omega)).sat.bind fun c hc => ?_
    refine (intmod_from_rat_ok hb hc (hd k)).sat.bind fun m hm => ?_
    have : (fpnPsub m.residue im).Sat False (fun a => CMod.Rep (IntMod.Rep p) M a (G.coeff k)) := by
      unfold fpnPsub
      have hmi : InInt m.residue := by
        have h1 := hm.2.1; have h2 := hm.2.2.1; unfold InInt; omega
      refine (CPoly.psub_sat H him hmi).bind fun r hr => ?_
      refine (CMod.mk'_sat H hr him hM).mono fun a ha => ?_
      rw [hm.2.2.2] at ha
      rw [hG]; exact ha
    refine this.bind fun a ha => ?_
    refine (set_coeff_cmp HC h2 k ha).mono fun t ht => ⟨_, fun i => ?_, ht⟩
    rw [coeff_update_apply, h1]
    by_cases e : i = k
    · subst e; rw [if_pos rfl, if_pos le_rfl]
    · rw [if_neg e]
      by_cases e2 : k ≤ i
      · rw [if_pos e2, if_pos (by omega)]
      · rw [if_neg e2, if_neg (by omega)]
  · obtain ⟨Hk, h1, h2⟩ := hr
    have : Hk = G := by ext i; rw [h1, if_pos (Nat.zero_le i)]
    rwa [this] at h2

end Fp

/-! ### Bits -/

theorem bit_from_rat_ok {r : IntRat} {x : ℚ} (hr : IntRat.Rep r x) (hd : ¬ 2 ∣ x.den) :
    bit_from_rat r = ok (decide (((x : ℚ) : ZMod 2) = 1)) := by
  obtain ⟨e1, e2⟩ := hr.num_eq
  unfold bit_from_rat
  rw [e1, e2, if_neg (by omega)]
  congr 1
  rw [decide_eq_decide, Rat.cast_def]
  have h1 : ((x.den : ℕ) : ZMod 2) = 1 := by
    have : x.den % 2 = 1 := by omega
    rw [← ZMod.natCast_mod, this]; rfl
  rw [h1, div_one]
  rcases Int.emod_two_eq_zero_or_one x.num with h | h
  · have : ((x.num : ℤ) : ZMod 2) = 0 := by
      rw [ZMod.intCast_zmod_eq_zero_iff_dvd]; exact Int.dvd_of_emod_eq_zero h
    rw [this, h]; simp
  · have : ((x.num : ℤ) : ZMod 2) = 1 := by
      have := ZMod.intCast_mod x.num 2
      rw [← this]; simp [h]
    rw [this, h]; simp

theorem bit_from_rat_throw {r : IntRat} {x : ℚ} (hr : IntRat.Rep r x) (hd : 2 ∣ x.den) : bit_from_rat r = throw := by
  obtain ⟨e1, e2⟩ := hr.num_eq
  unfold bit_from_rat
  rw [e2, if_pos (by omega)]

theorem set_coeff_bits {ps : F2P} (hc : F2P.Canon ps) {n : ℕ} (hn : n % 64 < 31) (b : Bool) :
    (F2P.set_coeff ps n b).Ok (fun r => F2P.Canon r ∧ ∀ t, F2P.bitAt r t = if t = n then b else F2P.bitAt ps t) := by
  cases b with
  | true =>
    rw [F2P.set_coeff_true hn]
    refine (F2P.set_bit_bits hc.ne_nil n).mono fun r ⟨h1, h2⟩ => ⟨h2 (Or.inl hc), fun t => ?_⟩
    rw [h1]; by_cases e : t = n <;> simp [e]
  | false =>
    refine (F2P.set_coeff_false hc.ne_nil hn).mono fun r ⟨h1, h2⟩ => ⟨h2 hc, fun t => ?_⟩
    rw [h1]; by_cases e : t = n <;> simp [e]

theorem canon_zero : F2P.Canon F2P.zero := F2Mod.canon_ofInt 0

theorem bitAt_zero (t : ℕ) : F2P.bitAt F2P.zero t = false := by
  have h := F2P.coeff_toPoly F2P.zero t
  unfold F2P.zero at h
  rw [F2P.toPoly_ofInt] at h
  by_contra hc
  rw [Bool.not_eq_false] at hc
  unfold F2P.zero at hc
  rw [hc] at h; simp at h

theorem f2_from_ok {q : QPoly} {F : ℚ[X]} (hq : PRep IntRat.Rep q F) (h30 : q.degree ≤ 30)
    (hd : ∀ i, ¬ 2 ∣ (F.coeff i).den) :
    (f2_poly_from_q_poly q).Ok (fun r => F2P.Canon r ∧ ∀ i, (F2P.toPoly r).coeff i = ((F.coeff i : ℚ) : ZMod 2)) := by
  unfold f2_poly_from_q_poly
  refine (forDown_ok (fun k s => F2P.Canon s ∧
    ∀ t, F2P.bitAt s t = (decide (k ≤ t) && decide (((F.coeff t : ℚ) : ZMod 2) = 1)))
    (by omega) ⟨canon_zero, fun t => ?_⟩ fun k s _ hk ⟨h1, h2⟩ => ?_).mono fun r ⟨h1, h2⟩ => ⟨h1, fun i => ?_⟩
  · rw [bitAt_zero]
    by_cases e : q.degree + 1 ≤ t
    · rw [coeff_eq_zero_of_natDegree_lt (p := F) (by rw [hq.deg]; omega)]; simp
    · simp [e]
  · refine (get_coeff_le hq (by omega)).bind fun c hc => ?_
    rw [bit_from_rat_ok hc (hd k), ok_bind]
    refine (set_coeff_bits h1 (by omega) _).mono fun r ⟨hr1, hr2⟩ => ⟨hr1, fun t => ?_⟩
    rw [hr2]
    by_cases e : t = k
    · subst e; simp
    · rw [if_neg e, h2]
      congr 1
      rw [decide_eq_decide]; omega
  · rw [F2P.coeff_toPoly, h2, decide_eq_true (Nat.zero_le i), Bool.true_and]
    have : ∀ z : ZMod 2, (if decide (z = 1) = true then (1 : ZMod 2) else 0) = z := by decide
    exact this _

theorem loopDown_ub {σ : Type} {body : ℕ → σ → Res σ} (I : ℕ → σ → Prop) (lo i0 : ℕ) (hi0 : lo ≤ i0) :
    ∀ (n : ℕ) (s : σ), i0 < lo + n → I (lo + n) s →
      (∀ i s, i0 < i → i < lo + n → I (i + 1) s → (body i s).Ok (I i)) →
      (∀ s, I (i0 + 1) s → body i0 s = ub) → loopDown body lo n s = ub
  | 0, _, h, _, _, _ => by omega
  | n + 1, s, h, hI, hb, hu => by
    unfold loopDown
    by_cases e : i0 = lo + n
    · subst e; rw [hu s hI]; rfl
    · obtain ⟨s', hs, hI'⟩ := hb (lo + n) s (by omega) (by omega) hI
      rw [hs, ok_bind]
      exact loopDown_ub I lo i0 hi0 n s' (by omega) hI' (fun i s h1 h2 => hb i s h1 (by omega)) hu

theorem set_coeff_ub {ps : F2P} {n : ℕ} (h : 32 ≤ n % 64) (hl : n / 64 < ps.length) (b : Bool) :
    F2P.set_coeff ps n b = ub := by
  unfold F2P.set_coeff
  rw [if_neg (by omega), if_neg (by omega), if_neg (by omega)]
  have e : ishl 1 ((n : Int) % 64) = ub := by
    unfold ishl; rw [if_neg (by omega)]
  dsimp only
  rw [e, F2P.rd_g (by omega)]; rfl

theorem set_coeff_true_ub {ps : F2P} {n : ℕ} (h : 32 ≤ n % 64) : F2P.set_coeff ps n true = ub := by
  unfold F2P.set_coeff
  rw [if_neg (by simp), if_neg (by omega)]
  have e : ishl 1 ((n : Int) % 64) = ub := by
    unfold ishl; rw [if_neg (by omega)]
  dsimp only
  rw [e, F2P.rd_g]
  · rfl
  · split
    · rw [F2P.resize_length]; omega
    · omega

/-- Reduction modulo 2 of a polynomial with an odd leading numerator runs into the shift bug of
`f2_poly_t::set_coeff` as soon as the degree is 32 or more. -/
theorem f2_from_ub {q : QPoly} {F : ℚ[X]} (hq : PRep IntRat.Rep q F) (h32 : 32 ≤ q.degree) (hne : q.degree % 64 ≠ 31)
    (hd : ∀ i, ¬ 2 ∣ (F.coeff i).den) (hl : ((F.leadingCoeff : ℚ) : ZMod 2) = 1) :
    f2_poly_from_q_poly q = ub := by
  have hlead : F.coeff q.degree = F.leadingCoeff := by rw [← hq.deg]; rfl
  have hget : ∀ i, i ≤ q.degree → ∀ rv : F2P, (do
      let c ← CPoly.get_coeff IntRat.cops q i
      let b ← bit_from_rat c
      F2P.set_coeff rv i b) = F2P.set_coeff rv i (decide (((F.coeff i : ℚ) : ZMod 2) = 1)) := by
    intro i hi rv
    obtain ⟨c, e, hc⟩ := get_coeff_le hq hi
    rw [e, ok_bind, bit_from_rat_ok hc (hd i), ok_bind]
  unfold f2_poly_from_q_poly forDown
  by_cases hd2 : 32 ≤ q.degree % 64
  · refine loopDown_ub (fun _ _ => True) 0 q.degree (by omega) _ _ (by omega) trivial
      (fun i s h1 h2 => by omega) fun s _ => ?_
    rw [hget _ le_rfl, hlead, hl, decide_eq_true rfl, set_coeff_true_ub hd2]
  · refine loopDown_ub (fun k s => F2P.Canon s ∧ (k ≤ q.degree → F2P.bitAt s q.degree = true)) 0
      (64 * (q.degree / 64) - 1) (by omega) _ _ (by omega) ⟨canon_zero, fun h => by omega⟩
      (fun i s h1 h2 hs => ?_) fun s hs => ?_
    · rw [hget i (by omega)]
      refine (set_coeff_bits hs.1 (by omega) _).mono fun r ⟨hr1, hr2⟩ => ⟨hr1, fun _ => ?_⟩
      rw [hr2]
      split
      · rename_i e; rw [← e, hlead, hl]; simp
      · exact hs.2 (by omega)
    · rw [hget _ (by omega)]
      have := F2P.lt_of_bitAt (hs.2 (by omega))
      exact set_coeff_ub (by omega) (by omega) _

end Cyclo
end Spffl
