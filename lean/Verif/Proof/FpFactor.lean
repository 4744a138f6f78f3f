/-
fp_poly_t over a prime field in the sense of Proof/CFactor.
-/
import Verif.Proof.CFactor3
import Verif.Proof.CoefInst
import Mathlib.FieldTheory.Finite.Basic
import Mathlib.Algebra.Polynomial.Expand

namespace Spffl
open Res Polynomial
open CPoly (PRep Holds)

namespace FpP
variable {p : ℕ} [hp : Fact p.Prime]

theorem rep_val {a : IntMod} {x : ZMod p} (h : IntMod.Rep p a x) : a.residue = x.val := by
  have h1 := h.2.1
  have h2 := h.2.2.1
  rw [← h.2.2.2, ZMod.val_intCast, Int.emod_eq_of_lt h1 h2]

theorem digits : Digits (Fintype.card (ZMod p)) (ZMod.val : ZMod p → ℕ) where
  zero := ZMod.val_zero
  lt x := by rw [ZMod.card]; exact ZMod.val_lt x
  inj := ZMod.val_injective p

theorem mk0 (hm : p ≤ 46341) : (IntMod.mk' 0 p).Sat False (fun r => IntMod.Rep p r 0) := by
  have := (IntMod.mk'_ok (m := p) (by have := hp.out.pos; omega) (by unfold InInt; omega) (r := 0) (by decide)).sat (U := False)
  rwa [Int.cast_zero] at this

theorem mk1 (hm : p ≤ 46341) : (IntMod.mk' 1 p).Sat False (fun r => IntMod.Rep p r 1) := by
  have := (IntMod.mk'_ok (m := p) (by have := hp.out.pos; omega) (by unfold InInt; omega) (r := 1) (by decide)).sat (U := False)
  rwa [Int.cast_one] at this

theorem eq_invalid {c : IntMod} (hc : IntMod.Rep p c 0) : IntMod.cops.eq c ⟨0, 1⟩ = ok false := by
  have h1 := hc.1
  have hp2 := hp.out.two_le
  show IntMod.eq c ⟨0, 1⟩ = ok false
  unfold IntMod.eq
  rw [show IntMod.check_modulus c = ok () by unfold IntMod.check_modulus; rw [if_neg (by omega)], ok_bind,
    show IntMod.check_modulus ⟨0, 1⟩ = ok () from rfl, ok_bind]
  simp only [h1]
  rw [if_pos (show ((p : Int) ≠ 1) by omega)]
  split <;> rfl

theorem gapLoop_ok {a : CPoly IntMod} {f : (ZMod p)[X]} (ha : PRep (IntMod.Rep p) a f) {zero : IntMod} (hz : IntMod.Rep p zero 0) (si : ℕ) :
    ∀ k j, (∀ t, j ≤ t → t < j + k → f.coeff (si + t) = 0) → gapLoop a zero si k j = ok true
  | 0, j, _ => rfl
  | k + 1, j, h => by
    unfold gapLoop
    split
    · rfl
    · rename_i hle
      obtain ⟨c, hc, hr⟩ := (ha.co (si + j) (by omega)).rd
      rw [hc, ok_bind, IntMod.eq_ok hr hz, ok_bind, h j le_rfl (by omega)]
      simp only [decide_true, if_true]
      exact gapLoop_ok ha hz si k (j + 1) fun t h1 h2 => h t (by omega) (by omega)

theorem pthLoop_sat {a : CPoly IntMod} {f : (ZMod p)[X]} (ha : PRep (IntMod.Rep p) a f) {zero : IntMod} (hz : IntMod.Rep p zero 0)
    (hf : ∀ t, ¬ p ∣ t → f.coeff t = 0) :
    ∀ (k di : ℕ) (cs : List IntMod), di + k = a.degree + 2 → di ≤ a.degree + 1 → cs.length = a.degree + 1 →
      (∀ j, j < di → At cs j (fun e => IntMod.Rep p e (f.coeff (j * p)))) → (∀ j, di ≤ j → j < a.degree + 1 → At cs j (fun e => IntMod.Rep p e 0)) →
      (pthLoop a zero p k (di * p) di cs).Sat False (fun r => ∃ cs, r = some cs ∧ ∀ j, j < a.degree + 1 → At cs j (fun e => IntMod.Rep p e (f.coeff (j * p))))
  | 0, di, cs, h1, h2, _, _, _ => by omega
  | k + 1, di, cs, h1, h2, hl, hlow, hhigh => by
    have hp2 := hp.out.two_le
    unfold pthLoop
    split
    · rename_i hend
      rw [Sat_ok]
      refine ⟨cs, rfl, fun j hj => ?_⟩
      rcases Nat.lt_or_ge j di with h | h
      · exact hlow j h
      · rw [coeff_eq_zero_of_natDegree_lt]
        · exact hhigh j h hj
        · rw [ha.deg]; exact hend.trans_le (Nat.mul_le_mul_right _ h)
    · rename_i hle
      have hdi : di * 2 ≤ di * p := Nat.mul_le_mul_left _ hp2
      refine (rd_sat (ha.co (di * p) (by omega))).bind fun c hc => ?_
      rw [wr_ok (by omega), ok_bind, gapLoop_ok ha hz _ _ _ fun t ht1 ht2 => hf _ ?_]
      · rw [ok_bind, if_pos rfl, show di * p + p = (di + 1) * p by ring]
        refine pthLoop_sat ha hz hf k (di + 1) _ (by omega) (by omega) (by rw [List.length_set, hl]) (fun j hj => ?_) (fun j hj1 hj2 => ?_)
        · by_cases e : di = j
          · subst e; exact at_set_self (by omega) hc
          · exact (hlow j (by omega)).congr (List.getElem?_set_ne e)
        · exact (hhigh j (by omega) hj2).congr (List.getElem?_set_ne (by omega))
      · rintro ⟨s, hs⟩
        have h3 : p ∣ t := by
          have : p ∣ di * p + t := ⟨s, hs⟩
          exact (Nat.dvd_add_right (Dvd.intro_left di rfl)).mp this
        exact absurd (Nat.le_of_dvd (by omega) h3) (by omega)

theorem pth_root_sat (hm : p ≤ 46341) {a : CPoly IntMod} {f : (ZMod p)[X]} (ha : PRep (IntMod.Rep p) a f) (hpos : 0 < f.natDegree) (hd : derivative f = 0) :
    (pth_root a).Sat False (fun r => ∃ s g, r = some s ∧ PRep (IntMod.Rep p) s g ∧ g ^ p = f) := by
  have hp2 := hp.out.two_le
  have H := IntMod.cops_ref hp2 hm
  have hexp := expand_contract p hd hp.out.ne_zero
  have hf : ∀ t, ¬ p ∣ t → f.coeff t = 0 := by
    intro t ht
    rw [← hexp, coeff_expand hp.out.pos, if_neg ht]
  have hcon : ∀ j, (contract p f).coeff j = f.coeff (j * p) := fun j => coeff_contract hp.out.ne_zero f j
  unfold pth_root
  refine (rd_sat ha.c0).bind fun c0 hc0 => ?_
  rw [hc0.1]
  refine (mk0 hm).bind fun zero hz => ?_
  rw [ha.deg] at hpos
  have h1 : IntMod.cops.psub invalid 0 = ok ⟨0, 1⟩ := by decide
  refine (CFac.dflt_grow h1 (fun c hc => eq_invalid hc) hz hpos).bind fun out hout => ?_
  obtain ⟨o1, o2, o3⟩ := hout
  refine (CFac.zero_fill hz o2 o3).bind fun cs hcs => ?_
  rw [Int.toNat_natCast]
  have := pthLoop_sat ha hz hf (a.degree + 2) 0 cs (by omega) (by omega) hcs.1 (fun j hj => by omega) (fun j _ hj => hcs.2 j hj)
  rw [zero_mul] at this
  refine this.bind fun r hr => ?_
  obtain ⟨ds, rfl, hds⟩ := hr
  dsimp only
  rw [o1]
  refine (CPoly.recompute_sat H (d := a.degree) (cs := ds) (f := contract p f) (fun j hj => ?_) ?_).bind fun s hs => ?_
  · rw [hcon]; exact hds j hj
  · rw [natDegree_le_iff_coeff_eq_zero]
    intro j hj
    rw [hcon, coeff_eq_zero_of_natDegree_lt]
    rw [ha.deg]; exact hj.trans_le (Nat.le_mul_of_pos_right _ hp.out.pos)
  · rw [Sat_ok]
    exact ⟨s, _, rfl, hs, by rw [← ZMod.expand_card, hexp]⟩

theorem incrLoop_sat (hm : p ≤ 46341) {f : (ZMod p)[X]} {zero one : IntMod} (hz : IntMod.Rep p zero 0) (h1 : IntMod.Rep p one 1) :
    ∀ k i cs, i + k = f.natDegree + 1 → CFac.IncrInv (IntMod.Rep p) ZMod.val p f i cs →
      (incrLoop zero one p k i cs).Sat False (CFac.IncrPost (IntMod.Rep p) ZMod.val p f)
  | 0, i, cs, hk, h => by
    unfold incrLoop
    rw [Sat_ok]
    obtain rfl : i = f.natDegree + 1 := by omega
    have D := digits (p := p)
    rw [ZMod.card] at D
    exact CFac.incr_end D h
  | k + 1, i, cs, hk, h => by
    have hp2 := hp.out.two_le
    have D := digits (p := p)
    rw [ZMod.card] at D
    unfold incrLoop
    have hat := h.high i le_rfl (by omega)
    have hlt := hat.lt
    refine (rd_sat hat).bind fun c hc => ?_
    rw [show isub (p : Int) 1 = chk ((p : Int) - 1) from rfl, chk_ok (by unfold InInt; omega), ok_bind]
    have hv := rep_val hc
    have hvlt := ZMod.val_lt (f.coeff i)
    split
    · rename_i hcl
      refine (IntMod.add_ok (by omega) hc h1).sat.bind fun d hd => ?_
      rw [wr_ok hlt, ok_bind, Sat_ok]
      refine CFac.incr_stop D h (by omega) hd ?_
      rw [ZMod.val_add, ZMod.val_one'' (by omega), Nat.mod_eq_of_lt (by omega)]
    · rename_i hcl
      rw [wr_ok hlt, ok_bind]
      exact incrLoop_sat hm hz h1 k (i + 1) _ (by omega) (CFac.incr_go h (by omega) hz (by omega))

theorem increment_sat (hm : p ≤ 46341) {a : CPoly IntMod} {f : (ZMod p)[X]} (ha : PRep (IntMod.Rep p) a f) :
    (increment a).Sat False (fun r => ∃ g, PRep (IntMod.Rep p) r g ∧ polyKey p ZMod.val g = polyKey p ZMod.val f + 1) := by
  have hp2 := hp.out.two_le
  have D := digits (p := p)
  rw [ZMod.card] at D
  unfold increment
  refine (rd_sat ha.c0).bind fun c0 hc0 => ?_
  rw [hc0.1]
  refine (mk0 hm).bind fun zero hz => (mk1 hm).bind fun one h1 => ?_
  refine (incrLoop_sat hm hz h1 (a.degree + 1) 0 a.coeffs (by rw [ha.deg]; omega) ⟨fun j hj => by omega, fun j _ hj => ha.co j (by rw [← ha.deg]; exact hj),
    fun j hj => by omega⟩).bind fun s hs => ?_
  exact CFac.incr_finish (IntMod.cops_ref hp2 hm) D (ZMod.val_one'' (by omega)) ha h1 hs

theorem fref (hm : p ≤ 46341) : FRef ctx (IntMod.Rep p) ZMod.val (fun n => (n : ZMod p)) p where
  ref := IntMod.cops_ref hp.out.two_le hm
  dig := digits
  mulNat hn h := IntMod.cops_mulNat hm h hn
  isOne _ := trivial
  q := by
    intro a f ha
    obtain ⟨c, hc, hr⟩ := ha.c0.rd
    show (do let c ← rd a.coeffs 0; ok c.modulus : Res Int) = _
    rw [hc, ok_bind, hr.1, ZMod.card]
  cst := by
    intro a f ha c hc
    rw [ZMod.card] at hc
    have := CPoly.psub_sat (IntMod.cops_ref hp.out.two_le hm) ha (v := c) (by unfold InInt; omega)
    rwa [Int.cast_natCast] at this
  surj y := ⟨y.val, by rw [ZMod.card]; exact ZMod.val_lt y, ZMod.natCast_zmod_val y⟩
  root ha h1 h2 := pth_root_sat hm ha h1 h2
  rexp := by
    intro a f ha
    obtain ⟨c, hc, hr⟩ := ha.c0.rd
    show (do let c ← rd a.coeffs 0; ok c.modulus : Res Int) = _
    rw [hc, ok_bind, hr.1]
  frob := by
    intro x y h
    simpa [ZMod.pow_card] using h
  one := ZMod.val_one'' (by have := hp.out.two_le; omega)
  incr := by
    intro a f ha
    rw [ZMod.card]
    exact increment_sat hm ha
  p2 := hp.out.two_le
  pmax := by unfold INT_MAX; omega
  inv := by
    exact ⟨⟨0, 1⟩, by decide, fun c hc => eq_invalid hc⟩

end FpP
end Spffl
