/-
Vectors and matrices from base representations: the entries are the digits, most significant first.
-/
import Verif.Proof.LinAlg
import Verif.Proof.IntMath
import Verif.Proof.F2Text
import Mathlib.Logic.Equiv.Fin.Basic

namespace Spffl
open Res Polynomial

namespace LinAlg

theorem sum_digits (b t len : ℕ) : ∑ k ∈ Finset.range len, (b / t ^ k % t) * t ^ k = b % t ^ len := by
  induction len with
  | zero => simp [Nat.mod_one]
  | succ n ih => rw [Finset.sum_range_succ, ih, Nat.mod_pow_succ, mul_comm (b / t ^ n % t)]

theorem sum_digits_rev (b t len : ℕ) : ∑ i : Fin len, (b / t ^ (len - 1 - (i : ℕ)) % t) * t ^ (len - 1 - (i : ℕ)) = b % t ^ len := by
  rw [← sum_digits, ← Finset.sum_range_reflect, Finset.sum_range]

theorem ediv_pow_succ (b : Int) (t k : ℕ) : b / (t : Int) ^ k / t = b / (t : Int) ^ (k + 1) := by
  rw [Int.ediv_ediv_of_nonneg (by positivity), pow_succ]

/-- the digit loop, over any element type -/
theorem digits_sat {U : Prop} {α : Type} {len t : ℕ} {b : Int} {v : List α} (hv : v.length = len)
    {body : ℕ → List α × Int → Res (List α × Int)} (Q : Int → Prop) (hQ : Q b) (hQs : ∀ c, Q c → Q (c / t)) {P : Int → α → Prop}
    (hb : ∀ i (s : List α × Int), i < s.1.length → Q s.2 →
      (body i s).Sat U (fun r => r.2 = s.2 / t ∧ ∃ e, P (s.2 % t) e ∧ r.1 = s.1.set i e)) :
    (forDown len 0 (v, b) body).Sat U (fun r => r.1.length = len ∧ Q r.2 ∧ r.2 = b / (t : Int) ^ len ∧
      ∀ i, i < len → At r.1 i (P (b / (t : Int) ^ (len - 1 - i) % t))) := by
  refine (forDown_sat (fun k (s : List α × Int) => s.1.length = len ∧ Q s.2 ∧ s.2 = b / (t : Int) ^ (len - k) ∧
    ∀ i, k ≤ i → i < len → At s.1 i (P (b / (t : Int) ^ (len - 1 - i) % t))) (Nat.zero_le _)
    ⟨hv, hQ, by simp, fun i h1 h2 => by omega⟩ ?_).mono fun r ⟨h1, h2, h3, h4⟩ => ⟨h1, h2, h3, fun i hi => h4 i (by omega) hi⟩
  intro i s _ hi ⟨h1, h2, h3, h4⟩
  refine (hb i s (by omega) h2).mono fun r ⟨r2, e, he, r1⟩ => ⟨by rw [r1]; simpa using h1, by rw [r2]; exact hQs _ h2, ?_, fun j hj1 hj2 => ?_⟩
  · rw [r2, h3, ediv_pow_succ]; congr 2; omega
  · by_cases hij : j = i
    · subst hij
      refine ⟨e, by rw [r1]; simp [h1, hi], ?_⟩
      rw [h3] at he
      rwa [show len - 1 - j = len - (j + 1) by omega]
    · refine (h4 j (by omega) hj2).congr ?_
      rw [r1, List.getElem?_set_ne (by omega)]

theorem vset_sat {U : Prop} {α : Type} {v : List α} {i : ℕ} {r : Res α} {P : α → Prop} (hi : i < v.length) (h : r.Sat U P) :
    (TVec.put v i r).Sat U (fun w => ∃ x, P x ∧ w = v.set i x) := vput_sat hi h

/-- F2: any `int`, as a two's complement bit string -/
theorem f2_vector_sat (b : Int) {len : ℕ} (hl : 0 < len) :
    (f2_vector_from_base_rep b len).Sat False (fun v => ∃ x : Fin len → ZMod 2, VRep BitT.Rep v x ∧
      ∀ i : Fin len, x i = ((b / 2 ^ (len - 1 - (i : ℕ)) : Int) : ZMod 2)) := by
  unfold f2_vector_from_base_rep
  refine (valloc_sat hl).bind fun v hv => ?_
  rw [Int.toNat_natCast]
  refine (digits_sat (t := 2) hv (fun _ => True) trivial (fun _ _ => trivial) (P := fun d e => BitT.Rep e (d : ZMod 2)) fun i s hi _ => ?_).bind
    fun r ⟨h1, _, _, h2⟩ => ?_
  · refine (vset_sat hi (P := fun e => BitT.Rep e ((s.2 % 2 : Int) : ZMod 2)) (by rw [Sat_ok]; exact BitT.rep_ofInt _)).bind fun w ⟨e, he, hw⟩ => ?_
    rw [Sat_ok]
    exact ⟨rfl, e, he, hw⟩
  · rw [Sat_ok]
    refine ⟨fun i => ((b / 2 ^ (len - 1 - (i : ℕ)) : Int) : ZMod 2), VRep.of h1 fun j hj => (h2 j hj).mono fun e he => ?_, fun i => rfl⟩
    convert he using 1
    exact (ZMod.intCast_mod _ 2).symm

theorem zval_two (c : ℕ) : ((c : ℕ) : ZMod 2).val = c % 2 := ZMod.val_natCast 2 c

theorem zval_bit (b : Int) (k : ℕ) : ((((b / 2 ^ k : Int) : ZMod 2).val : ℕ) : Int) = b / 2 ^ k % 2 := by
  rw [ZMod.val_intCast]; rfl

theorem sum_bits (b : Int) (len : ℕ) : ∑ k ∈ Finset.range len, (b / 2 ^ k % 2) * 2 ^ k = b % 2 ^ len := by
  induction len with
  | zero => simp
  | succ n ih =>
    rw [Finset.sum_range_succ, ih, pow_succ]
    have h1 := Int.emod_add_mul_ediv b (2 ^ n)
    have h2 := Int.emod_add_mul_ediv (b / 2 ^ n) 2
    have h3 := Int.emod_add_mul_ediv b (2 ^ n * 2)
    rw [← Int.ediv_ediv_of_nonneg (by positivity)] at h3
    linear_combination h1 - h3 + 2 ^ n * h2

theorem sum_bits_rev (b : Int) (len : ℕ) : ∑ i : Fin len, (b / 2 ^ (len - 1 - (i : ℕ)) % 2) * 2 ^ (len - 1 - (i : ℕ)) = b % 2 ^ len := by
  rw [← sum_bits, ← Finset.sum_range_reflect, Finset.sum_range]

/-- F2 matrices -/
theorem f2_matrix_sat (b : Int) {nr nc : ℕ} (hr : 0 < nr) (hc : 0 < nc) :
    (f2_matrix_from_base_rep b nr nc).Sat False (fun A => ∃ M : Matrix (Fin nr) (Fin nc) (ZMod 2), MRep BitT.Rep A M ∧
      ∀ i j, M i j = ((b / 2 ^ (nr * nc - 1 - ((i : ℕ) * nc + j)) : Int) : ZMod 2)) := by
  unfold f2_matrix_from_base_rep
  refine (alloc_sat hr hc).bind fun A ⟨s0, _⟩ => ?_
  rw [Int.toNat_natCast, Int.toNat_natCast]
  refine (forDown_sat (fun k (s : TMat BitT × Int) => Shape s.1 nr nc ∧ s.2 = b / 2 ^ (nr * nc - k * nc) ∧
    ∀ i j, k ≤ i → i < nr → j < nc → At2 s.1 i j (fun e => BitT.Rep e ((b / 2 ^ (nr * nc - 1 - (i * nc + j)) : Int) : ZMod 2)))
    (Nat.zero_le _) ⟨s0, by simp, fun i j h1 h2 => by omega⟩ ?_).bind fun r ⟨h1, _, h2⟩ => ?_
  · intro i s _ hi ⟨h1, h2, h3⟩
    have hinr : (i + 1) * nc ≤ nr * nc := Nat.mul_le_mul_right _ hi
    rw [Nat.succ_mul] at hinr
    refine (forDown_sat (fun k (s : TMat BitT × Int) => Shape s.1 nr nc ∧ s.2 = b / 2 ^ (nr * nc - (i * nc + k)) ∧
      ∀ i' j, (i < i' ∨ i' = i ∧ k ≤ j) → i' < nr → j < nc → At2 s.1 i' j (fun e => BitT.Rep e ((b / 2 ^ (nr * nc - 1 - (i' * nc + j)) : Int) : ZMod 2)))
      (Nat.zero_le _) ⟨h1, by rw [h2, Nat.succ_mul], fun i' j q1 q2 q3 => h3 i' j (by omega) q2 q3⟩ ?_).mono fun r ⟨g1, g2, g3⟩ =>
        ⟨g1, by simpa using g2, fun i' j q1 q2 q3 => g3 i' j (by omega) q2 q3⟩
    intro j s _ hj ⟨h1, h2, h3⟩
    refine (cput_sat h1 hi hj (P := fun e => BitT.Rep e ((s.2 % 2 : Int) : ZMod 2)) (by rw [Sat_ok]; exact BitT.rep_ofInt _)).bind fun B ⟨sB, eB, fB⟩ => ?_
    rw [Sat_ok]
    refine ⟨sB, ?_, fun i' j' q1 q2 q3 => ?_⟩
    · have := ediv_pow_succ b 2 (nr * nc - (i * nc + (j + 1)))
      dsimp only
      rw [h2, show nr * nc - (i * nc + j) = nr * nc - (i * nc + (j + 1)) + 1 by omega]
      exact this
    · by_cases hij : i' = i ∧ j' = j
      · obtain ⟨rfl, rfl⟩ := hij
        refine eB.mono fun e he => ?_
        rw [h2] at he
        have hm : ((b / 2 ^ (nr * nc - (i' * nc + (j' + 1))) % 2 : Int) : ZMod 2) = ((b / 2 ^ (nr * nc - (i' * nc + (j' + 1))) : Int) : ZMod 2) :=
          ZMod.intCast_mod _ 2
        rw [hm] at he
        rwa [show nr * nc - 1 - (i' * nc + j') = nr * nc - (i' * nc + (j' + 1)) by omega]
      · exact (h3 i' j' (by omega) q2 q3).congr (fB i' j' (by omega))
  · rw [Sat_ok]
    exact ⟨fun i j => ((b / 2 ^ (nr * nc - 1 - ((i : ℕ) * nc + j)) : Int) : ZMod 2),
      MRep.of h1 fun i j hi hj => h2 i j (by omega) hi hj, fun i j => rfl⟩

theorem sum_bits_matrix (b : Int) (nr nc : ℕ) :
    ∑ i : Fin nr, ∑ j : Fin nc, (b / 2 ^ (nr * nc - 1 - ((i : ℕ) * nc + j)) % 2) * 2 ^ (nr * nc - 1 - ((i : ℕ) * nc + j)) = b % 2 ^ (nr * nc) := by
  rw [← sum_bits_rev b (nr * nc), ← Finset.sum_product', Finset.univ_product_univ]
  refine Fintype.sum_equiv finProdFinEquiv _ _ fun x => ?_
  have : (finProdFinEquiv x : ℕ) = (x.1 : ℕ) * nc + x.2 := by simp [finProdFinEquiv]; ring
  rw [this]

/-- Fp -/
theorem fp_vector_sat {b p len : ℕ} (hb : InInt b) (hp : 0 < p) (hp' : InInt p) (hl : 0 < len) :
    (fp_vector_from_base_rep b p len).Sat False (fun v => ∃ x : Fin len → ZMod p, VRep (IntMod.Rep p) v x ∧
      ∑ i : Fin len, (x i).val * p ^ (len - 1 - (i : ℕ)) = b % p ^ len) := by
  haveI : NeZero p := ⟨by omega⟩
  unfold InInt at hb hp'
  unfold fp_vector_from_base_rep
  refine (valloc_sat hl).bind fun v hv => ?_
  rw [Int.toNat_natCast]
  refine (digits_sat (t := p) hv (fun c => 0 ≤ c ∧ c ≤ 2147483647) (by omega) (fun c hc => ⟨Int.ediv_nonneg hc.1 (by omega),
    (Int.ediv_le_self _ hc.1).trans hc.2⟩) (P := fun d e => IntMod.Rep p e (d : ZMod p)) fun i s hi ⟨hs0, hs1⟩ => ?_).bind
    fun r ⟨h1, _, _, h2⟩ => ?_
  · rw [imod_nonneg_ok hs0 hs1 (by omega), ok_bind]
    have hq0 := Int.emod_nonneg s.2 (show (p : Int) ≠ 0 by omega)
    have hq1 := Int.emod_lt_of_pos s.2 (show (0 : Int) < p by omega)
    refine (vset_sat hi (IntMod.mk'_ok hp (by unfold InInt; omega) (by unfold InInt; omega)).sat).bind fun w ⟨e, he, hw⟩ => ?_
    have hd0 := Int.ediv_nonneg hs0 (show (0 : Int) ≤ p by omega)
    have hd1 := Int.ediv_le_self (p : Int) hs0
    unfold idiv
    rw [if_neg (by omega), Int.tdiv_eq_ediv_of_nonneg hs0, chk_ok (by unfold InInt; omega), ok_bind, Sat_ok]
    exact ⟨rfl, e, he, hw⟩
  · rw [Sat_ok]
    have hcast : ∀ k, ((b : Int) / (p : Int) ^ k % p) = ((b / p ^ k % p : ℕ) : Int) := fun k => by push_cast; rfl
    refine ⟨fun i => ((b / p ^ (len - 1 - (i : ℕ)) % p : ℕ) : ZMod p), VRep.of h1 fun j hj => (h2 j hj).mono fun e he => ?_, ?_⟩
    · rw [hcast, Int.cast_natCast] at he; exact he
    · rw [← sum_digits_rev]
      refine Finset.sum_congr rfl fun i _ => ?_
      rw [ZMod.val_natCast, Nat.mod_mod]

/-- `1 << d` as a divisor of a non-negative `int`; for `d = 31` it is negative, with the same quotient and remainder. -/
theorem ishl_div {d : ℕ} (hd : d < 32) : ∃ t, ishl 1 d = ok t ∧ ∀ c : Int, 0 ≤ c → c ≤ 2147483647 →
    imod c t = ok (c % (2 ^ d : ℕ)) ∧ idiv c t = ok (c / (2 ^ d : ℕ)) := by
  by_cases h : d < 31
  · have hpos : 0 < 2 ^ d := Nat.pos_of_ne_zero (by positivity)
    have hpow : (2 : Int) ^ d = ((2 ^ d : ℕ) : Int) := by push_cast; rfl
    refine ⟨_, F2P.ishl_one h, fun c h0 h1 => ?_⟩
    rw [hpow]
    refine ⟨imod_nonneg_ok h0 h1 (by omega), ?_⟩
    have hd0 := Int.ediv_nonneg h0 (show (0 : Int) ≤ (2 ^ d : ℕ) by omega)
    have hd1 := Int.ediv_le_self ((2 ^ d : ℕ) : Int) h0
    unfold idiv
    rw [if_neg (by omega), Int.tdiv_eq_ediv_of_nonneg h0, chk_ok (by unfold InInt; omega)]
  · have : d = 31 := by omega
    subst this
    refine ⟨-2147483648, by decide, fun c h0 h1 => ?_⟩
    have e1 : c.tdiv (-2147483648) = 0 := by
      rw [Int.tdiv_neg, Int.tdiv_eq_zero_of_lt h0 (by omega)]; rfl
    have e2 : c.tmod (-2147483648) = c := by
      rw [Int.tmod_neg, Int.tmod_eq_of_lt h0 (by omega)]
    unfold imod idiv
    rw [e1, e2, if_neg (by decide), if_pos (by decide), if_neg (by decide), chk_ok (by decide)]
    refine ⟨congrArg ok ?_, congrArg ok ?_⟩ <;> norm_num <;> omega

/-- F2^n -/
theorem ft_vector_sat {b len d : ℕ} (hb : InInt b) {m : F2P} (hm : F2P.Canon m) (hd : (F2P.toPoly m).natDegree = d) (hm0 : F2P.toPoly m ≠ 0)
    (hd31 : d < 32) (hl : 0 < len) :
    (ft_vector_from_base_rep b m len).Sat False (fun v => ∃ f : Fin len → (ZMod 2)[X], (∀ i, (f i).degree < (F2P.toPoly m).degree) ∧
      VRep (F2Mod.Rep (F2P.toPoly m)) v (fun i => AdjoinRoot.mk _ (f i)) ∧
      ∑ i : Fin len, F2P.nval (f i) * (2 ^ d) ^ (len - 1 - (i : ℕ)) = b % (2 ^ d) ^ len) := by
  unfold InInt at hb
  unfold ft_vector_from_base_rep
  refine (valloc_sat hl).bind fun v hv => ?_
  obtain ⟨t', ht1, ht2⟩ := ishl_div hd31
  rw [F2P.find_degree_ok, ok_bind, hd, ht1, ok_bind]
  rw [Int.toNat_natCast]
  have hpos : 0 < 2 ^ d := Nat.pos_of_ne_zero (by positivity)
  have hle : 2 ^ d ≤ 2 ^ 31 := Nat.pow_le_pow_right (by norm_num) (by omega)
  generalize htt : 2 ^ d = t at *
  refine (digits_sat (t := t) hv (fun c => 0 ≤ c ∧ c ≤ 2147483647) (by omega) (fun c hc => ⟨Int.ediv_nonneg hc.1 (by omega),
    (Int.ediv_le_self _ hc.1).trans hc.2⟩) (P := fun c e => ∃ f : (ZMod 2)[X], F2P.nval f = c.toNat ∧
      F2Mod.Rep (F2P.toPoly m) e (AdjoinRoot.mk _ f)) fun i s hi ⟨hs0, hs1⟩ => ?_).bind
    fun r ⟨h1, _, _, h2⟩ => ?_
  · rw [(ht2 _ hs0 hs1).1, ok_bind]
    have hq0 := Int.emod_nonneg s.2 (show (t : Int) ≠ 0 by omega)
    have hq1 := Int.emod_lt_of_pos s.2 (show (0 : Int) < t by omega)
    refine (vset_sat hi (F2Mod.mk'_ok (F2P.canon_single _).good hm rfl hm0).sat).bind fun w ⟨e, he, hw⟩ => ?_
    have hd0 := Int.ediv_nonneg hs0 (show (0 : Int) ≤ t by omega)
    have hd1 := Int.ediv_le_self (t : Int) hs0
    rw [(ht2 _ hs0 hs1).2, ok_bind, Sat_ok]
    refine ⟨rfl, e, ⟨_, ?_, he.1⟩, hw⟩
    rw [F2P.nval_toPoly]
    show F2P.val [BitVec.ofInt 64 (s.2 % t)] = _
    obtain ⟨c, hc⟩ := Int.eq_ofNat_of_zero_le hq0
    rw [hc, Int.toNat_natCast]
    have : c < 2 ^ 64 := by omega
    simp [F2P.val]; omega
  · rw [Sat_ok]
    have hcast : ∀ k, ((b : Int) / (t : Int) ^ k % t) = ((b / t ^ k % t : ℕ) : Int) := fun k => by push_cast; rfl
    choose e he f hf using h2
    refine ⟨fun i => f i i.2, fun i => ?_, VRep.of h1 fun j hj => ⟨e j hj, he j hj, (hf j hj).2⟩, ?_⟩
    · have h3 := (hf i i.2).1
      rw [hcast, Int.toNat_natCast] at h3
      by_contra hcon
      dsimp only at hcon
      rw [not_lt, degree_eq_natDegree hm0, hd] at hcon
      have hf0 : f i i.2 ≠ 0 := by intro h0; rw [h0] at hcon; simp at hcon
      rw [degree_eq_natDegree hf0, Nat.cast_le] at hcon
      have h4 := F2P.pow_le_nval hf0
      have h5 : 2 ^ d ≤ 2 ^ (f i i.2).natDegree := Nat.pow_le_pow_right (by norm_num) hcon
      have h6 := Nat.mod_lt (b / t ^ (len - 1 - (i : ℕ))) hpos
      omega
    · rw [← sum_digits_rev]
      refine Finset.sum_congr rfl fun i _ => ?_
      rw [(hf i i.2).1, hcast, Int.toNat_natCast]

theorem ft_vector_ub {b : Int} {len : ℕ} {m : F2P} (hd : 32 ≤ (F2P.toPoly m).natDegree) (hl : 0 < len) :
    ft_vector_from_base_rep b m len = ub := by
  obtain ⟨v, h, -⟩ := sat_false.mp (valloc_sat (U := False) (O := F2Mod.cops.tops) hl)
  unfold ft_vector_from_base_rep
  rw [h, ok_bind, F2P.find_degree_ok, ok_bind]
  unfold ishl
  rw [if_neg (by omega)]; rfl

end LinAlg
end Spffl
