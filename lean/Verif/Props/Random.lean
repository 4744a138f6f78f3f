/-
Property C68 (random elements).  `src` is the sequence of words delivered by the bit source, any sequence at all;
`pos` counts the words used.
-/
import Verif.Proof.Random

namespace Spffl.Props
open Res
open Polynomial
open Random

/-- Residues are canonical and equal to the word modulo m; moduli below 2 are refused. -/
theorem C68_intmod (src : ℕ → BitVec 32) (pos : ℕ) (m : Int) (hm : m ≤ 2147483647) :
    (m < 2 → intmod_random src m pos = throw) ∧
    (2 ≤ m → intmod_random src m pos = ok (⟨(src pos).toInt % m, m⟩, pos + 1)) := by
  refine ⟨fun h => by unfold intmod_random; rw [if_pos h], fun h => ?_⟩
  obtain ⟨k, rfl⟩ := Int.eq_ofNat_of_zero_le (show 0 ≤ m by omega)
  obtain ⟨⟨a, q⟩, e, ⟨h1, h2, h3, h4⟩, h5⟩ := intmod_random_ok src (m := k) (by omega) (by omega) pos
  simp only at h1 h2 h3 h4 h5
  subst h5
  rw [e]
  have h6 : a.residue = (src pos).toInt % k := by
    have := (ZMod.intCast_eq_intCast_iff _ _ _).mp h4
    unfold Int.ModEq at this
    rwa [Int.emod_eq_of_lt h2 h3] at this
  cases a; simp_all

/-- `f2_poly_random(d)` has degree exactly d; the coefficient of `x^i` is bit 17 of the word drawn for it. -/
theorem C68_f2_poly (src : ℕ → BitVec 32) (pos d : ℕ) :
    ∃ r, f2_poly_random src d pos = ok (r, pos + d) ∧ F2P.Canon r ∧ (F2P.toPoly r).natDegree = d ∧
      ∀ i, i < d → ((F2P.toPoly r).coeff i = 1 ↔ (src (pos + (d - 1 - i))).getLsbD 17 = true) := by
  obtain ⟨⟨r, q⟩, e, h1, h2, h3⟩ := f2_poly_random_ok src d pos
  simp only at h1 h2 h3
  subst h3
  refine ⟨r, e, h1, by rw [h2, monicOf_natDegree], fun i hi => ?_⟩
  rw [h2, monicOf_coeff, if_neg (by omega), if_pos hi]
  unfold bitOf
  split <;> simp_all

theorem C68_f2_poly_negative (src : ℕ → BitVec 32) (pos : ℕ) (d : Int) (h : d < 0) :
    f2_poly_random src d pos = throw := by unfold f2_poly_random; rw [if_pos h]

theorem C68_fp_poly_negative (src : ℕ → BitVec 32) (pos : ℕ) (p d : Int) (h : d < 0) :
    fp_poly_random src p d pos = throw := by unfold fp_poly_random; rw [if_pos h]

theorem C68_f2n_poly_negative (src : ℕ → BitVec 32) (pos : ℕ) (m : F2P) (d : Int) (h : d < 0) :
    f2n_poly_random src m d pos = throw := by unfold f2n_poly_random; rw [if_pos h]

/-- `fp_poly_random(p, d)` is canonical, has degree exactly d, and its lower coefficients are the words drawn
modulo p. -/
theorem C68_fp_poly (src : ℕ → BitVec 32) (pos p d : ℕ) (hp : 2 ≤ p) (hp' : p ≤ 2147483647) :
    ∃ r F, fp_poly_random src p d pos = ok (r, pos + (d + 1)) ∧ CPoly.PRep (IntMod.Rep p) r F ∧ F.natDegree = d ∧
      (∀ i, i < d → F.coeff i = ((src (pos + (d - i))).toInt : ZMod p)) ∧
      F.coeff d = (if ((src pos).toInt : ZMod p) = 0 then 1 else ((src pos).toInt : ZMod p)) := by
  obtain ⟨⟨r, q⟩, e, F, h1, h2, h3, h4⟩ := fp_poly_random_ok src hp hp' d pos
  rw [mul_one] at h4
  simp only at h1 h2 h3 h4
  subst h4
  refine ⟨r, F, e, h1, h2, fun i hi => ?_, ?_⟩
  · rw [h3 i hi.le]; unfold coefOf; rw [if_neg (by omega), mul_one]
  · rw [h3 d le_rfl]; unfold coefOf fix; rw [if_pos rfl]
    split <;> simp_all

/-- `f2n_poly_random(m, d)` is canonical and has degree exactly d, for every m of positive degree. -/
theorem C68_f2n_poly (src : ℕ → BitVec 32) (pos d : ℕ) (m : F2P) (hm : F2P.Canon m)
    (hd : 1 ≤ (F2P.toPoly m).natDegree) :
    ∃ r F, f2n_poly_random src m d pos = ok (r, pos + (d + 1) * (F2P.toPoly m).natDegree) ∧
      CPoly.PRep (F2Mod.Rep (F2P.toPoly m)) r F ∧ F.natDegree = d := by
  obtain ⟨⟨r, q⟩, e, F, h1, h2, h3, h4⟩ := f2n_poly_random_ok src hm hd d pos
  simp only at h1 h2 h3 h4
  subst h4
  exact ⟨r, F, e, h1, h2⟩

/-- Random residues of polynomials are canonical, whatever the source … -/
theorem C68_f2_polymod (src : ℕ → BitVec 32) (pos : ℕ) (m : F2P) (hm : F2P.Canon m)
    (hd : 1 ≤ (F2P.toPoly m).natDegree) :
    ∃ a x, f2_polymod_random src m pos = ok (a, pos + (F2P.toPoly m).natDegree) ∧ F2Mod.Rep (F2P.toPoly m) a x := by
  obtain ⟨⟨r, q⟩, e, h1, h2⟩ := f2_polymod_random_ok src hm hd pos
  simp only at h1 h2
  subst h2
  exact ⟨r, _, e, h1⟩

theorem C68_f2_polymod_constant (src : ℕ → BitVec 32) (pos : ℕ) (m : F2P) (h : (F2P.toPoly m).natDegree = 0) :
    f2_polymod_random src m pos = throw := by
  unfold f2_polymod_random
  rw [F2P.find_degree_ok, ok_bind, if_pos (by omega)]

/-- … and each residue is the outcome of exactly one choice of the bits used. -/
theorem C68_f2_polymod_uniform (pos : ℕ) (m : F2P) (hm : F2P.Canon m) (hd : 1 ≤ (F2P.toPoly m).natDegree)
    (x : AdjoinRoot (F2P.toPoly m)) :
    ∃! b : Fin (F2P.toPoly m).natDegree → Bool, ∀ src : ℕ → BitVec 32,
      (∀ j : Fin (F2P.toPoly m).natDegree, (src (pos + j)).getLsbD 17 = b j) →
      ∃ a n, f2_polymod_random src m pos = ok (a, n) ∧ F2Mod.Rep (F2P.toPoly m) a x := by
  have hM0 : (F2P.toPoly m) ≠ 0 := by rintro h; rw [h] at hd; simp at hd
  obtain ⟨F, ⟨f1, f2, f3⟩, fu⟩ := residue_bijective hM0 (1 : ZMod 2) x
  have z2 : ∀ z : ZMod 2, z = if decide (z = 1) = true then 1 else 0 := by decide
  refine ⟨fun j => decide (F.coeff ((F2P.toPoly m).natDegree - 1 - j) = 1), fun src hs => ?_, fun b hb => ?_⟩
  · obtain ⟨⟨r, q⟩, e, h1, h2⟩ := f2_polymod_random_ok src hm hd pos
    refine ⟨r, q, e, ?_⟩
    rw [← f3]
    have : F = monicOf (F2P.toPoly m).natDegree (fun i => bitOf src (pos + ((F2P.toPoly m).natDegree - 1 - i))) := by
      ext t
      rw [monicOf_coeff]
      split
      · rename_i h; rw [h, f2]
      · split
        · rename_i h
          unfold bitOf
          have := hs ⟨(F2P.toPoly m).natDegree - 1 - t, by omega⟩
          simp only at this
          rw [this, show (F2P.toPoly m).natDegree - 1 - ((F2P.toPoly m).natDegree - 1 - t) = t by omega]
          exact z2 _
        · exact coeff_eq_zero_of_natDegree_lt (by omega)
    rw [this]; exact h1
  · let src : ℕ → BitVec 32 := fun k =>
      if h : k - pos < (F2P.toPoly m).natDegree then (if b ⟨k - pos, h⟩ then 0x20000#32 else 0#32) else 0#32
    have hs : ∀ j : Fin (F2P.toPoly m).natDegree, (src (pos + j)).getLsbD 17 = b j := fun j => by
      show (dite _ _ _ : BitVec 32).getLsbD 17 = _
      have h : pos + (j : ℕ) - pos < (F2P.toPoly m).natDegree := by have := j.2; omega
      rw [dif_pos h]
      have : (⟨pos + (j : ℕ) - pos, h⟩ : Fin (F2P.toPoly m).natDegree) = j := by ext; simp
      rw [this]
      cases b j <;> decide
    obtain ⟨a, n, e, hr⟩ := hb src hs
    obtain ⟨⟨r, q⟩, e', h1, h2⟩ := f2_polymod_random_ok src hm hd pos
    rw [e] at e'; cases e'
    have hx := h1.val.symm.trans hr.val
    have := fu _ ⟨(monicOf_natDegree _ _).le, by rw [monicOf_coeff, if_pos rfl], hx⟩
    funext j
    have hj := j.2
    rw [← this, monicOf_coeff, if_neg (by omega), if_pos (by omega)]
    unfold bitOf
    rw [show (F2P.toPoly m).natDegree - 1 - ((F2P.toPoly m).natDegree - 1 - (j : ℕ)) = j by omega, hs j]
    cases b j <;> simp

section Fp
variable {p : ℕ} [hp : Fact p.Prime]

theorem C68_fp_polymod (hb : p ≤ 46341) (src : ℕ → BitVec 32) (pos : ℕ) (m : CPoly IntMod) (M : (ZMod p)[X])
    (hm : CPoly.PRep (IntMod.Rep p) m M) :
    (M.natDegree = 0 → fp_polymod_random src m pos = throw) ∧
    (1 ≤ M.natDegree → ∃ a x, fp_polymod_random src m pos = ok (a, pos + (M.natDegree + 1)) ∧
      CMod.Rep (IntMod.Rep p) M a x) := by
  refine ⟨fun h => ?_, fun hd => ?_⟩
  · unfold fp_polymod_random; rw [if_pos (by rw [← hm.deg]; omega)]
  · obtain ⟨⟨a, q⟩, e, F, h1, h2, h3, h4⟩ := fp_polymod_random_ok src hb hm hd pos
    simp only at h4
    subst h4
    exact ⟨a, _, e, h3⟩

/-- Whatever the first word, each residue is the outcome of exactly one choice of the other words modulo p. -/
theorem C68_fp_polymod_uniform (hb : p ≤ 46341) (pos : ℕ) (m : CPoly IntMod) (M : (ZMod p)[X])
    (hm : CPoly.PRep (IntMod.Rep p) m M) (hd : 1 ≤ M.natDegree) (w : BitVec 32) (x : AdjoinRoot M) :
    ∃! c : Fin M.natDegree → ZMod p, ∀ src : ℕ → BitVec 32, src pos = w →
      (∀ j : Fin M.natDegree, ((src (pos + 1 + j)).toInt : ZMod p) = c j) →
      ∃ a n, fp_polymod_random src m pos = ok (a, n) ∧ CMod.Rep (IntMod.Rep p) M a x := by
  have hM0 : M ≠ 0 := by rintro h; rw [h] at hd; simp at hd
  obtain ⟨F, ⟨f1, f2, f3⟩, fu⟩ := residue_bijective hM0 (fix (w.toInt : ZMod p)) x
  refine ⟨fun j => F.coeff (M.natDegree - 1 - j), fun src h0 hs => ?_, fun c hc => ?_⟩
  · obtain ⟨⟨a, q⟩, e, G, h1, h2, h3, h4⟩ := fp_polymod_random_ok src hb hm hd pos
    refine ⟨a, q, e, ?_⟩
    have : F = G := by
      ext t
      by_cases ht : t ≤ M.natDegree
      · rw [h2 t ht]
        unfold coefOf
        split
        · rename_i h; rw [h, f2, ← h0]
        · rename_i h
          have := hs ⟨M.natDegree - 1 - t, by omega⟩
          simp only at this
          rw [show pos + (M.natDegree - t) * 1 = pos + 1 + (M.natDegree - 1 - t) by omega]
          beta_reduce
          rw [this, show M.natDegree - 1 - (M.natDegree - 1 - t) = t by omega]
      · rw [coeff_eq_zero_of_natDegree_lt (by omega), coeff_eq_zero_of_natDegree_lt (by omega)]
    rw [← f3, this]; exact h3
  · let src : ℕ → BitVec 32 := fun k =>
      if k = pos then w else
      if h : k - (pos + 1) < M.natDegree then BitVec.ofNat 32 (c ⟨k - (pos + 1), h⟩).val else 0#32
    have h0 : src pos = w := if_pos rfl
    have hs : ∀ j : Fin M.natDegree, ((src (pos + 1 + j)).toInt : ZMod p) = c j := fun j => by
      show ((ite _ _ (dite _ _ _) : BitVec 32).toInt : ZMod p) = _
      have h : pos + 1 + (j : ℕ) - (pos + 1) < M.natDegree := by have := j.2; omega
      rw [if_neg (by omega), dif_pos h]
      have : (⟨pos + 1 + (j : ℕ) - (pos + 1), h⟩ : Fin M.natDegree) = j := by ext; simp
      rw [this]
      have hv : (c j).val < p := ZMod.val_lt _
      have : (BitVec.ofNat 32 (c j).val).toInt = (c j).val := by
        rw [BitVec.toInt_eq_toNat_of_lt]
        · rw [BitVec.toNat_ofNat, Nat.mod_eq_of_lt (by omega)]
        · rw [BitVec.toNat_ofNat, Nat.mod_eq_of_lt (by omega)]; omega
      rw [this, Int.cast_natCast, ZMod.natCast_zmod_val]
    obtain ⟨a, n, e, hr⟩ := hc src h0 hs
    obtain ⟨⟨a', q⟩, e', G, h1, h2, h3, h4⟩ := fp_polymod_random_ok src hb hm hd pos
    rw [e] at e'; cases e'
    have hx : AdjoinRoot.mk M G = x := by
      obtain ⟨g, r1, d1, v1⟩ := h3.hr
      obtain ⟨g', r2, d2, v2⟩ := hr.hr
      have : g = g' := CPoly.PRep.inj (fun h h' => h.2.2.2.symm.trans h'.2.2.2) r1 r2
      rw [← v1, ← v2, this]
    have := fu G ⟨h1.le, by rw [h2 _ le_rfl]; unfold coefOf; rw [if_pos rfl, ← h0], hx⟩
    funext j
    have hj := j.2
    rw [← this, h2 _ (by omega)]
    unfold coefOf
    rw [if_neg (by omega), ← hs j]
    congr 2; congr 1; omega

end Fp

section F2n
variable {im : F2P} [hirr : Fact (Irreducible (F2P.toPoly im))]

theorem C68_f2n_polymod (src : ℕ → BitVec 32) (pos : ℕ) (him : F2P.Canon im) (om : CPoly F2Mod)
    (M : (AdjoinRoot (F2P.toPoly im))[X]) (hm : CPoly.PRep (F2Mod.Rep (F2P.toPoly im)) om M) (hM : M ≠ 0) :
    ∃ a x, f2n_polymod_random src im om pos = ok (a, pos + (M.natDegree + 1) * (F2P.toPoly im).natDegree) ∧
      CMod.Rep (F2Mod.Rep (F2P.toPoly im)) M a x := by
  obtain ⟨⟨a, q⟩, e, F, h1, h2, h3, h4⟩ := f2n_polymod_random_ok src him hirr.out hm hM pos
  simp only at h4
  subst h4
  exact ⟨a, _, e, h3⟩

/-- Whatever the leading coefficient drawn, two sources drawing different lower coefficients give different
residues, and every residue is reached. -/
theorem C68_f2n_polymod_uniform (pos : ℕ) (him : F2P.Canon im) (om : CPoly F2Mod)
    (M : (AdjoinRoot (F2P.toPoly im))[X]) (hm : CPoly.PRep (F2Mod.Rep (F2P.toPoly im)) om M) (hM : M ≠ 0)
    (l : AdjoinRoot (F2P.toPoly im)) (x : AdjoinRoot M) :
    ∃! c : Fin M.natDegree → AdjoinRoot (F2P.toPoly im), ∀ src : ℕ → BitVec 32,
      (∃ a n, f2_polymod_random src im pos = ok (a, n) ∧ F2Mod.Rep (F2P.toPoly im) a l) →
      (∀ j : Fin M.natDegree, ∃ a n, f2_polymod_random src im (pos + (j + 1) * (F2P.toPoly im).natDegree) = ok (a, n) ∧
        F2Mod.Rep (F2P.toPoly im) a (c j)) →
      ∃ a n, f2n_polymod_random src im om pos = ok (a, n) ∧ CMod.Rep (F2Mod.Rep (F2P.toPoly im)) M a x := by
  have hdg : 1 ≤ (F2P.toPoly im).natDegree := hirr.out.natDegree_pos
  have drawn : ∀ (src : ℕ → BitVec 32) q y, (∃ a n, f2_polymod_random src im q = ok (a, n) ∧ F2Mod.Rep (F2P.toPoly im) a y) →
      resOf src (F2P.toPoly im) q = y := by
    rintro src q y ⟨a, n, e, hr⟩
    obtain ⟨⟨a', n'⟩, e', h1, h2⟩ := f2_polymod_random_ok src him hdg q
    rw [e] at e'; cases e'
    exact h1.val.symm.trans hr.val
  obtain ⟨F, ⟨f1, f2, f3⟩, fu⟩ := residue_bijective hM (fix l) x
  refine ⟨fun j => F.coeff (M.natDegree - 1 - j), fun src h0 hs => ?_, fun c hc => ?_⟩
  · obtain ⟨⟨a, q⟩, e, G, h1, h2, h3, h4⟩ := f2n_polymod_random_ok src him hirr.out hm hM pos
    refine ⟨a, q, e, ?_⟩
    have : F = G := by
      ext t
      by_cases ht : t ≤ M.natDegree
      · rw [h2 t ht]
        unfold coefOf
        split
        · rename_i h; rw [h, f2, drawn src pos l h0]
        · rename_i h
          have := drawn _ _ _ (hs ⟨M.natDegree - 1 - t, by omega⟩)
          simp only at this
          rw [show M.natDegree - 1 - t + 1 = M.natDegree - t by omega] at this
          rw [this, show M.natDegree - 1 - (M.natDegree - 1 - t) = t by omega]
      · rw [coeff_eq_zero_of_natDegree_lt (by omega), coeff_eq_zero_of_natDegree_lt (by omega)]
    rw [← f3, this]; exact h3
  · -- a source drawing exactly these coefficients
    let y : ℕ → AdjoinRoot (F2P.toPoly im) := fun k =>
      if k = 0 then l else if h : k - 1 < M.natDegree then c ⟨k - 1, h⟩ else 0
    choose b hbit _ using fun k => C68_f2_polymod_uniform (pos + k * (F2P.toPoly im).natDegree) im him hdg (y k)
    let src : ℕ → BitVec 32 := fun k =>
      if b ((k - pos) / (F2P.toPoly im).natDegree) ⟨(k - pos) % (F2P.toPoly im).natDegree, Nat.mod_lt _ hdg⟩
      then 0x20000#32 else 0#32
    have hsrc : ∀ k, ∃ a n, f2_polymod_random src im (pos + k * (F2P.toPoly im).natDegree) = ok (a, n) ∧
        F2Mod.Rep (F2P.toPoly im) a (y k) := fun k => by
      refine hbit k src fun j => ?_
      show (ite _ _ _ : BitVec 32).getLsbD 17 = _
      have e1 : pos + k * (F2P.toPoly im).natDegree + (j : ℕ) - pos = j + k * (F2P.toPoly im).natDegree := by omega
      have e2 : ∀ u v : ℕ, (hv : v < (F2P.toPoly im).natDegree) → u = k → v = j → b u ⟨v, hv⟩ = b k j := by
        rintro u v hv rfl rfl; rfl
      rw [e2 _ _ _ (by rw [e1, Nat.add_mul_div_right _ _ hdg, Nat.div_eq_of_lt j.2, zero_add])
        (by rw [e1, Nat.add_mul_mod_self_right, Nat.mod_eq_of_lt j.2])]
      cases b k j <;> decide
    have hy : ∀ j : Fin M.natDegree, y (j + 1) = c j := fun j => by
      show (if _ then _ else dite _ _ _) = _
      rw [if_neg (by omega), dif_pos (by have := j.2; omega)]
      congr 1
    have h0 := hsrc 0
    rw [zero_mul, add_zero] at h0
    have h0 : ∃ a n, f2_polymod_random src im pos = ok (a, n) ∧ F2Mod.Rep (F2P.toPoly im) a l := h0
    have hs : ∀ j : Fin M.natDegree, ∃ a n, f2_polymod_random src im (pos + (j + 1) * (F2P.toPoly im).natDegree) = ok (a, n) ∧
        F2Mod.Rep (F2P.toPoly im) a (c j) := fun j => by rw [← hy j]; exact hsrc _
    obtain ⟨a, n, e, hr⟩ := hc src h0 hs
    obtain ⟨⟨a', q⟩, e', G, h1, h2, h3, h4⟩ := f2n_polymod_random_ok src him hirr.out hm hM pos
    rw [e] at e'; cases e'
    have hx : AdjoinRoot.mk M G = x := by
      obtain ⟨g, r1, d1, v1⟩ := h3.hr
      obtain ⟨g', r2, d2, v2⟩ := hr.hr
      have : g = g' := CPoly.PRep.inj (fun h h' => h.val.symm.trans h'.val) r1 r2
      rw [← v1, ← v2, this]
    have := fu G ⟨h1.le, by rw [h2 _ le_rfl]; unfold coefOf; rw [if_pos rfl, drawn src pos l h0], hx⟩
    funext j
    have hj := j.2
    rw [← this, h2 _ (by omega)]
    unfold coefOf
    rw [if_neg (by omega), ← drawn _ _ _ (hs j)]
    congr 3; omega

end F2n

/-! ## Examples -/

example : f2_poly_random (fun k => if k % 2 = 0 then 0x20000#32 else 0#32) 5 0 = ok ([0x35#64], 5) := by decide +kernel
example : intmod_random (fun _ => 0xffffffff#32) 7 3 = ok (⟨6, 7⟩, 4) := by decide +kernel
-- a leading zero becomes one
example : fp_poly_random (fun k => BitVec.ofNat 32 (7 * k)) 7 2 0 = ok (⟨2, [⟨0, 7⟩, ⟨0, 7⟩, ⟨1, 7⟩]⟩, 3) := by
  decide +kernel
example : fp_poly_random (generator (0, 1)) 5 2 0 = ok (⟨2, [⟨1, 5⟩, ⟨3, 5⟩, ⟨4, 5⟩]⟩, 3) := by decide +kernel
example : fp_poly_random (fun _ => 0x7ffffffe#32) 2147483647 1 0 =
    ok (⟨1, [⟨2147483646, 2147483647⟩, ⟨2147483646, 2147483647⟩]⟩, 2) := by decide +kernel

end Spffl.Props
