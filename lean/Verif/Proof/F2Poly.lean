/-
f2_poly_t operations refine arithmetic in `(ZMod 2)[X]`.
-/
import Verif.Proof.F2Words
import Verif.Proof.FacInfo
import Verif.Base.PolyLemmas

namespace Spffl
open Res Polynomial

namespace F2P

/-! ### `_promote_n` -/

theorem g_split_zero {ps : F2P} {d : ℕ} (hd : (toPoly ps).natDegree ≤ d) {j : ℕ} (hj : d / 64 < j) :
    g ps j = 0 := by
  apply BitVec.eq_of_getLsbD_eq
  intro b hb
  rw [← bitAt_word ps j b hb]
  have : bitAt ps (64 * j + b) = false := by
    by_contra hc
    have := le_natDegree_of_ne_zero (coeff_ne_zero.mpr (by simpa using hc))
    omega
  rw [this]; simp

theorem zeroFill_ok {ps : F2P} {n : ℕ} (h : n ≤ ps.length) :
    (forDown n 0 ps fun i ps => wr ps i 0).Ok (fun r => r.length = ps.length ∧
      ∀ j, g r j = if j < n then 0 else g ps j) := by
  refine (forDown_store (lo := 0) (hi := n) (off := 0) (ps := ps) (f := fun _ => 0)
    (body := fun i ps => wr ps i 0) (by omega) (by omega) fun i s _ h2 h3 _ => by
      rw [wr_ok (by omega)]; rfl).mono fun r ⟨h1, h2⟩ => ⟨h1, fun j => ?_⟩
  rw [h2]; simp

theorem promoteTail_ok {q ps : F2P} {nb d s : ℕ} (hds : s < d) (hd : d ≤ q.length) (hps : q.length = ps.length)
    (hq : ∀ j, g q j = if d ≤ j then (g ps (j - (d - s)) >>> (64 - nb)) ||| (g ps (j - (d - s) + 1) <<< nb)
      else g ps j) (hdl : s + 1 ≤ d) :
    (promoteTail q nb d s).Ok (fun r => r.length = q.length ∧ ∀ j, g r j =
      if d - s ≤ j then (g ps (j - (d - s)) >>> (64 - nb)) ||| (g ps (j - (d - s) + 1) <<< nb)
      else if j = d - s - 1 then g ps 0 <<< nb else 0) := by
  unfold promoteTail
  rw [if_neg (by omega)]
  have h1 := forDown_store (lo := 0) (hi := s) (off := d - s) (ps := q)
    (body := fun si ps => do
      let x ← rd ps si
      let y ← rd ps (si + 1)
      wr ps (si + (d - s)) ((x >>> (64 - nb)) ||| (y <<< nb)))
    (f := fun i => (g ps i >>> (64 - nb)) ||| (g ps (i + 1) <<< nb)) (by omega) (by omega)
    fun i s' h1 h2 h3 h4 => by
      rw [rd_g (by omega), ok_bind, rd_g (by omega), ok_bind, wr_ok (by omega), h4, h4,
        if_neg (by omega), if_neg (by omega), hq, hq, if_neg (by omega), if_neg (by omega)]
  refine h1.bind fun o ⟨hl, hg⟩ => ?_
  rw [rd_g (by omega), ok_bind, wr_ok (by omega), ok_bind]
  have hg0 : g o 0 = g ps 0 := by rw [hg, if_neg (by omega), hq, if_neg (by omega)]
  refine (zeroFill_ok (n := d - s - 1) (by simp; omega)).mono fun r ⟨hr1, hr2⟩ => ⟨by simpa [hl] using hr1, fun j => ?_⟩
  rw [hr2, g_set (by omega), hg0, hg, hq]
  by_cases c1 : d - s ≤ j
  · rw [if_neg (by omega), if_neg (by omega), if_pos c1]
    by_cases c2 : 0 + (d - s) ≤ j ∧ j < s + (d - s)
    · rw [if_pos c2]
    · rw [if_neg c2, if_pos (by omega)]
  · rw [if_neg c1]
    by_cases c2 : j = d - s - 1
    · rw [if_neg (by omega), if_pos c2, if_pos c2]
    · rw [if_pos (by omega), if_neg c2]

theorem promote_n_ok {ps : F2P} (h : ps ≠ []) (n : ℕ) :
    (promote_n ps n).Ok (fun r => toPoly r = toPoly ps * X ^ n ∧ (toPoly ps ≠ 0 → Canon r)) := by
  have h0 : 0 < ps.length := List.length_pos_of_ne_nil h
  have hcanon : ∀ r : F2P, toPoly r = toPoly ps * X ^ n →
      r.length = ((toPoly ps).natDegree + n) / 64 + 1 → toPoly ps ≠ 0 → Canon r := by
    intro r h1 h2 h3
    unfold Canon
    rw [h1, natDegree_mul_X_pow n h3, h2]
  unfold promote_n
  rw [find_degree_ok, ok_bind]
  set od := (toPoly ps).natDegree with hod
  dsimp only
  set q := resize ps ((od + n) / 64 + 1) with hqdef
  have hql : q.length = (od + n) / 64 + 1 := resize_length _ _
  have hqg : ∀ j, g q j = g ps j := by
    intro j
    rw [hqdef, g_resize]
    split
    · rfl
    · rw [g_split_zero (d := od) le_rfl (by omega)]
  have hz : ∀ j, od / 64 < j → g q j = 0 := fun j hj => by
    rw [hqg]; exact g_split_zero (d := od) le_rfl hj
  have hpq : toPoly q = toPoly ps := toPoly_ext fun t => by unfold bitAt; rw [hqg]
  split
  · rename_i hn
    have h1 := forDown_store (lo := 0) (hi := od / 64 + 1) (off := n / 64) (ps := q)
      (body := fun i ps => do
        let x ← rd ps i
        wr ps (i + n / 64) x)
      (f := fun i => g q i) (by omega) (by omega)
      fun i s' h1 h2 h3 h4 => by
        rw [rd_g (by omega), ok_bind, wr_ok (by omega), h4]
        by_cases hc : n / 64 = 0
        · rw [hc] at *
          split <;> simp
        · rw [if_neg (by omega)]
    refine h1.bind fun o ⟨hl, hg⟩ => ?_
    have hle : o.length - (od / 64 + 1) = n / 64 := by omega
    refine (zeroFill_ok (by omega)).mono fun r ⟨hr1, hr2⟩ => ?_
    have hp : toPoly r = toPoly ps * X ^ n := by
      rw [← hpq]
      refine toPoly_shift fun t => ?_
      unfold bitAt
      rw [hr2, hg, hle]
      by_cases hc : n ≤ t
      · rw [if_neg (by omega)]
        by_cases hc2 : t / 64 < od / 64 + 1 + n / 64
        · rw [if_pos (by omega)]
          rw [show t / 64 - n / 64 = (t - n) / 64 by omega, show (t - n) % 64 = t % 64 by omega]
          simp [hc]
        · rw [if_neg (by omega), hz _ (by omega), hz ((t - n) / 64) (by omega)]
          simp
      · rw [if_pos (by omega)]; simp [hc]
    exact ⟨hp, hcanon r hp (by omega)⟩
  · rename_i hn
    -- common ending for the two ways of treating the top word
    have key : ∀ (q' : F2P) (d s : ℕ), q'.length = q.length → d - s = n / 64 + 1 → s < d → d ≤ q.length →
        (∀ j, g q' j = if d ≤ j then (g q (j - (d - s)) >>> (64 - n % 64)) ||| (g q (j - (d - s) + 1) <<< (n % 64))
          else g q j) →
        (promoteTail q' (n % 64) d s).Ok
          (fun r => toPoly r = toPoly ps * X ^ n ∧ (toPoly ps ≠ 0 → Canon r)) := by
      intro q' d s hl hds hsd hdl hg
      refine (promoteTail_ok hsd (by omega) hl hg (by omega)).mono fun r ⟨hr1, hr2⟩ => ?_
      have hp : toPoly r = toPoly ps * X ^ n := by
        rw [← hpq]
        refine toPoly_shift fun t => ?_
        unfold bitAt
        rw [hr2, hds]
        by_cases c1 : n / 64 + 1 ≤ t / 64
        · rw [if_pos c1, BitVec.getLsbD_or, BitVec.getLsbD_shiftLeft, BitVec.getLsbD_ushiftRight]
          have hc : n ≤ t := by omega
          by_cases hb : t % 64 < n % 64
          · rw [show (t - n) / 64 = t / 64 - (n / 64 + 1) by omega,
              show (t - n) % 64 = 64 - n % 64 + t % 64 by omega]
            simp [hb, hc]
          · rw [show (t - n) / 64 = t / 64 - (n / 64 + 1) + 1 by omega,
              show (t - n) % 64 = t % 64 - n % 64 by omega]
            rw [BitVec.getLsbD_of_ge _ (64 - n % 64 + t % 64) (by omega)]
            simp [hb, hc, show t % 64 < 64 by omega]
        · rw [if_neg c1]
          by_cases c2 : t / 64 = n / 64
          · rw [if_pos (by omega), BitVec.getLsbD_shiftLeft]
            by_cases hc : n ≤ t
            · rw [show (t - n) / 64 = 0 by omega, show (t - n) % 64 = t % 64 - n % 64 by omega]
              simp [hc, show ¬ t % 64 < n % 64 by omega, show t % 64 < 64 by omega]
            · simp [hc, show t % 64 < n % 64 by omega]
          · rw [if_neg (by omega)]
            simp [show ¬ n ≤ t by omega]
      exact ⟨hp, hcanon r hp (by omega)⟩
    split
    · rename_i htop
      rw [rd_g (by omega), ok_bind, wr_ok (by omega), ok_bind]
      rw [show od / 64 + 1 - 1 = od / 64 by omega]
      have hlen : (q.set (q.length - 1) (g q (od / 64) >>> (64 - n % 64))).length = q.length := by simp
      rw [hlen]
      refine key _ _ _ hlen (by omega) (by omega) (by omega) fun j => ?_
      rw [g_set (by omega)]
      by_cases hj : q.length - 1 ≤ j
      · rw [if_pos hj]
        by_cases hj2 : j = q.length - 1
        · rw [if_pos hj2, show j - (q.length - 1 - od / 64) = od / 64 by omega, hz (od / 64 + 1) (by omega)]
          simp
        · rw [if_neg hj2, hz j (by omega), hz (j - (q.length - 1 - od / 64)) (by omega),
            hz (j - (q.length - 1 - od / 64) + 1) (by omega)]
          simp
      · rw [if_neg hj, if_neg (by omega)]
    · rename_i htop
      rw [show od / 64 + 1 - 1 = od / 64 by omega]
      refine key _ _ _ rfl (by omega) (by omega) (by omega) fun j => ?_
      split
      · rename_i hj
        rw [hz j (by omega)]
        have hj' : od / 64 ≤ j - (q.length - od / 64) := by omega
        rw [hz (j - (q.length - od / 64) + 1) (by omega)]
        by_cases hj2 : od / 64 < j - (q.length - od / 64)
        · rw [hz _ hj2]; simp
        · -- the top word loses only zero bits
          have : j - (q.length - od / 64) = od / 64 := by omega
          rw [this]
          apply BitVec.eq_of_getLsbD_eq
          intro b hb
          rw [BitVec.getLsbD_or, BitVec.getLsbD_ushiftRight]
          simp only [BitVec.ofNat_eq_ofNat, BitVec.getLsbD_zero, BitVec.zero_shiftLeft, Bool.or_false]
          symm
          by_cases hb2 : 64 - n % 64 + b < 64
          · rw [← bitAt_word q _ _ hb2]
            by_contra hcon
            have := le_natDegree_of_ne_zero (coeff_ne_zero.mpr (by simpa using hcon))
            rw [hpq] at this
            omega
          · exact BitVec.getLsbD_of_ge _ _ (by omega)
      · rfl

/-! ### Coefficient access -/

theorem bit_at_ok (ps : F2P) (t : ℕ) : bit_at ps t = ok (bitAt ps t) := by
  unfold bit_at
  have e1 : ((t : Int) / 64).toNat = t / 64 := by omega
  have e2 : ((t : Int) % 64).toNat = t % 64 := by omega
  split
  · rw [bitAt_of_le (by omega)]
  · rename_i h
    rw [rd_g (by omega), ok_bind, e1, e2]
    congr 1
    unfold bitAt
    rw [Bool.eq_iff_iff, decide_eq_true_iff]
    constructor
    · intro hne
      by_contra hc
      apply hne
      apply BitVec.eq_of_getLsbD_eq
      intro i hi
      rw [BitVec.getLsbD_and, BitVec.getLsbD_ushiftRight]
      by_cases hi0 : i = 0
      · subst hi0; simp at hc ⊢; simpa using hc
      · rw [show (1#64).getLsbD i = false by
          simp [BitVec.getLsbD_one, hi0]]
        simp
    · intro hb hz
      have := congrArg (fun w => w.getLsbD 0) hz
      simp [BitVec.getLsbD_and, BitVec.getLsbD_ushiftRight] at this
      simp_all

theorem bit_at_neg (ps : F2P) {t : Int} (h : t < 0) : bit_at ps t = ok false := by
  unfold bit_at; rw [if_pos (Or.inl h)]

theorem one_shl (k i : ℕ) (hk : k < 64) : (1#64 <<< k).getLsbD i = decide (i = k) := by
  rw [BitVec.getLsbD_shiftLeft, BitVec.getLsbD_one]
  by_cases h : i = k
  · subst h; simp [hk]
  · by_cases h2 : i < 64 <;> by_cases h3 : i < k <;> simp [h, h2, h3] <;> omega

theorem set_bit_bits {ps : F2P} (h : ps ≠ []) (n : ℕ) :
    (set_bit ps n).Ok (fun r => (∀ t, bitAt r t = (bitAt ps t || decide (t = n))) ∧
      (Canon ps ∨ ps.length ≤ n / 64 → Canon r)) := by
  have h0 : 0 < ps.length := List.length_pos_of_ne_nil h
  unfold set_bit
  rw [if_neg (by omega)]
  have e1 : ((n : Int) / 64).toNat = n / 64 := by omega
  have e2 : ((n : Int) % 64).toNat = n % 64 := by omega
  rw [e1, e2]
  have hqdef : ∃ q : F2P, (if (ps.length : Int) ≤ (n : Int) / 64 then resize ps (n / 64 + 1) else ps) = q ∧
      n / 64 < q.length ∧ (∀ j, g q j = g ps j) ∧ (q = ps ∧ n / 64 < ps.length ∨ q.length = n / 64 + 1) := by
    split
    · refine ⟨_, rfl, by rw [resize_length]; omega, fun j => ?_, Or.inr (resize_length _ _)⟩
      rw [g_resize]; split
      · rfl
      · rw [g_of_le (by omega)]
    · exact ⟨_, rfl, by omega, fun _ => rfl, Or.inl ⟨rfl, by omega⟩⟩
  obtain ⟨q, hq, hlen, hg, hor⟩ := hqdef
  dsimp only
  rw [hq, rd_g hlen, ok_bind, wr_ok hlen, Ok_ok]
  have hset : ∀ j, g (q.set (n / 64) (g q (n / 64) ||| 1#64 <<< (n % 64))) j =
      if j = n / 64 then g ps (n / 64) ||| 1#64 <<< (n % 64) else g ps j := by
    intro j; rw [g_set hlen, hg, hg]
  constructor
  · intro t
    unfold bitAt
    rw [hset]
    split
    · rename_i e
      rw [BitVec.getLsbD_or, one_shl _ _ (by omega), e]
      congr 1
      rw [decide_eq_decide]; omega
    · rename_i e
      have : ¬ t = n := by rintro rfl; exact e rfl
      simp [this]
  · intro hc
    have hne : g ps (n / 64) ||| 1#64 <<< (n % 64) ≠ 0 := by
      intro hz
      have := congrArg (fun w => w.getLsbD (n % 64)) hz
      simp only [BitVec.getLsbD_or, one_shl _ _ (show n % 64 < 64 by omega)] at this
      simp at this
    by_cases hl : q.length = n / 64 + 1
    · apply canon_of_last (ne_nil_of_length (by simp; omega))
      simp only [List.length_set]
      rw [hset, if_pos (by omega)]; exact hne
    · rcases hor with ⟨rfl, hlt'⟩ | h'
      · have hc : Canon q := hc.resolve_right (by omega)
        apply canon_of_last (ne_nil_of_length (by simp; omega))
        simp only [List.length_set]
        rw [hset, if_neg (by omega)]
        apply hc.last
        intro hz0
        have := hc.of_zero hz0
        rw [this] at hl hlen
        simp at hl hlen
        omega
      · omega

theorem set_bit_new {ps : F2P} (h : ps ≠ []) {n : ℕ} (hn : bitAt ps n = false) :
    (set_bit ps n).Ok (fun r => toPoly r = toPoly ps + X ^ n ∧ (Canon ps → Canon r)) := by
  refine (set_bit_bits h n).mono fun r ⟨h1, h2⟩ => ⟨?_, fun hc => h2 (Or.inl hc)⟩
  ext t
  rw [coeff_add, coeff_toPoly, coeff_toPoly, h1, coeff_X_pow]
  by_cases e : t = n
  · subst e; simp [hn]
  · simp [e]

/-! ### Constants -/

theorem toPoly_single (w : BitVec 64) (t : ℕ) : bitAt [w] t = (decide (t < 64) && w.getLsbD t) := by
  unfold bitAt
  by_cases h : t < 64
  · rw [show t / 64 = 0 by omega, show t % 64 = t by omega]; simp [g, h]
  · rw [g_of_le (by simp; omega)]; simp [h]

@[simp] theorem toPoly_zero : toPoly zero = 0 := by
  rw [toPoly_eq_zero]; intro t
  unfold zero ofInt
  rw [toPoly_single]; simp

@[simp] theorem toPoly_one : toPoly one = 1 := by
  ext t
  rw [coeff_toPoly]
  unfold one ofInt
  rw [toPoly_single, coeff_one]
  have : (BitVec.ofNat 64 ((1 : Int) % 2).toNat) = 1#64 := rfl
  rw [this, BitVec.getLsbD_one]
  by_cases h : t = 0
  · simp [h]
  · simp [h]; 

theorem canon_zero : Canon zero := canon_single _
theorem canon_one : Canon one := canon_single _

theorem toPoly_ofInt (c : Int) : toPoly (ofInt c) = C (c : ZMod 2) := by
  rcases Int.emod_two_eq_zero_or_one c with h | h
  · have : ofInt c = zero := by unfold ofInt zero; rw [h]; rfl
    rw [this, toPoly_zero, (ZMod.intCast_zmod_eq_zero_iff_dvd c 2).mpr (by omega)]; simp
  · have : ofInt c = one := by unfold ofInt one; rw [h]; rfl
    rw [this, toPoly_one]
    have h2 : ((c - 1 : Int) : ZMod 2) = 0 := (ZMod.intCast_zmod_eq_zero_iff_dvd _ 2).mpr (by omega)
    have : (c : ZMod 2) = 1 := by push_cast at h2; exact sub_eq_zero.mp h2
    rw [this]; simp

/-! ### Multiplication -/

/-- low part of a polynomial -/
noncomputable def low (p : (ZMod 2)[X]) (i : ℕ) : (ZMod 2)[X] := ∑ t ∈ Finset.range i, C (p.coeff t) * X ^ t

theorem low_succ (p : (ZMod 2)[X]) (i : ℕ) : low p (i + 1) = low p i + C (p.coeff i) * X ^ i := by
  unfold low; rw [Finset.sum_range_succ]

theorem low_all (p : (ZMod 2)[X]) : low p (p.natDegree + 1) = p := p.as_sum_range_C_mul_X_pow.symm

theorem xorInto_ok {src out : F2P} (h : src.length ≤ out.length) :
    (forUp 0 src.length out (xorInto src)).Ok (fun r => r.length = out.length ∧
      toPoly r = toPoly out + toPoly src) := by
  refine (forUp_store (lo := 0) (hi := src.length) (ps := out) (body := xorInto src)
    (f := fun i => g out i ^^^ g src i) (by omega) h fun i s h1 h2 h3 h4 => by
      unfold xorInto
      rw [rd_g (by omega), ok_bind, rd_g (by omega), ok_bind, wr_ok (by omega), h4, if_neg (by omega)]
      ).mono fun r ⟨h1, h2⟩ => ⟨h1, toPoly_xor (bitAt_xor fun j => ?_)⟩
  rw [h2]
  split
  · rfl
  · rw [g_of_le (ps := src) (by omega)]; simp

/-- General multiplication: enough that the left operand has no more words than the product needs. -/
theorem mul_gen {a b : F2P} (ha : Canon a ∨ toPoly b = 0 ∧ a ≠ []) :
    (mul a b).Ok (fun r => toPoly r = toPoly a * toPoly b ∧
      r.length = ((toPoly a).natDegree + (toPoly b).natDegree + 64) / 64) := by
  unfold mul
  rw [find_degree_ok, ok_bind, find_degree_ok, ok_bind]
  dsimp only
  set L := ((toPoly a).natDegree + (toPoly b).natDegree + 64) / 64 with hL
  have hinv : (forUp 0 ((toPoly b).natDegree + 1) (List.replicate L (0 : BitVec 64), a) (mulStep b)).Ok
      (fun s => s.1.length = L ∧ toPoly s.1 = toPoly a * low (toPoly b) ((toPoly b).natDegree + 1)) := by
    refine (forUp_ok (fun i (s : F2P × F2P) => s.1.length = L ∧ toPoly s.1 = toPoly a * low (toPoly b) i ∧
      (Canon a → Canon s.2) ∧ s.2 ≠ [] ∧ toPoly s.2 = toPoly a * X ^ i) (Nat.zero_le _) ?_ ?_).mono
      fun s h => ⟨h.1, h.2.1⟩
    · refine ⟨by simp, ?_, fun h => h, ?_, by simp⟩
      · rw [toPoly_eq_zero.mpr (bitAt_replicate L)]; simp [low]
      · rcases ha with ha | ha
        · exact ha.ne_nil
        · exact ha.2
    · rintro i ⟨out, sh⟩ _ hi ⟨h1, h2, h3, h4, h5⟩
      dsimp only at h1 h2 h3 h4 h5
      unfold mulStep
      rw [bit_at_ok, ok_bind]
      dsimp only
      split
      · rename_i hb
        have hco := coeff_ne_zero.mpr hb
        have hbne : toPoly b ≠ 0 := by intro hz; rw [hz] at hco; simp at hco
        have hca : Canon a := by
          rcases ha with ha | ha
          · exact ha
          · exact absurd ha.1 hbne
        have hlen : sh.length ≤ out.length := by
          have hc := h3 hca
          unfold Canon at hc
          rw [hc, h1, h5, hL]
          have : (toPoly a * X ^ i).natDegree ≤ (toPoly a).natDegree + i := by
            refine natDegree_mul_le.trans ?_
            simp
          omega
        refine (xorInto_ok hlen).bind fun o ⟨ho1, ho2⟩ => ?_
        refine (promote_1_ok h4).bind fun s' ⟨hs1, hs2, hs3⟩ => ?_
        rw [Ok_ok]
        refine ⟨ho1.trans h1, ?_, fun h => hs3 (h3 h), ?_, ?_⟩
        · dsimp only
          rw [ho2, h2, h5, low_succ]
          have : (toPoly b).coeff i = 1 := by rw [coeff_toPoly, if_pos hb]
          rw [this]; simp; ring
        · exact hs2
        · rw [hs1, h5, pow_succ]; ring
      · rename_i hb
        refine (promote_1_ok h4).bind fun s' ⟨hs1, hs2, hs3⟩ => ?_
        rw [Ok_ok]
        refine ⟨h1, ?_, fun h => hs3 (h3 h), ?_, ?_⟩
        · dsimp only
          rw [h2, low_succ]
          have : (toPoly b).coeff i = 0 := by rw [coeff_toPoly, if_neg hb]
          rw [this]; simp
        · exact hs2
        · rw [hs1, h5, pow_succ]; ring
  refine hinv.bind fun s ⟨h1, h2⟩ => ?_
  rw [Ok_ok]
  refine ⟨?_, h1⟩
  rw [h2, low_all]

/-- Storage that may carry leading zero words only when the polynomial is zero: what `*` returns. -/
def Good (ps : F2P) : Prop := ps ≠ [] ∧ (toPoly ps ≠ 0 → Canon ps)

theorem Canon.good {ps : F2P} (h : Canon ps) : Good ps := ⟨h.ne_nil, fun _ => h⟩

theorem mul_ok {a b : F2P} (ha : Canon a) :
    (mul a b).Ok (fun r => toPoly r = toPoly a * toPoly b ∧ Good r) := by
  refine (mul_gen (Or.inl ha)).mono fun r ⟨h1, h2⟩ => ⟨h1, ne_nil_of_length (by omega), fun hne => ?_⟩
  rw [h1] at hne
  unfold Canon
  rw [h2, h1, natDegree_mul (left_ne_zero_of_mul hne) (right_ne_zero_of_mul hne)]
  omega

theorem mul_canon {a b : F2P} (ha : Canon a) (hz : toPoly a * toPoly b ≠ 0) :
    (mul a b).Ok (fun r => toPoly r = toPoly a * toPoly b ∧ Canon r) :=
  (mul_ok ha).mono fun _ ⟨h1, h2⟩ => ⟨h1, h2.2 (by rwa [h1])⟩

/-! ### Zero tests -/

theorem const_of_natDegree {ps : F2P} (h : (toPoly ps).natDegree = 0) (hg : g ps 0 = 0) : toPoly ps = 0 := by
  rw [eq_C_of_natDegree_eq_zero h, coeff_toPoly]
  unfold bitAt; simp [hg]

theorem isZeroTest_ok {ps : F2P} (h : ps ≠ []) :
    isZeroTest (toPoly ps).natDegree ps = ok (decide (toPoly ps = 0)) := by
  have h0 : 0 < ps.length := List.length_pos_of_ne_nil h
  unfold isZeroTest
  split
  · rename_i hd
    rw [rd_g h0, ok_bind]
    congr 1
    rw [decide_eq_decide]
    exact ⟨const_of_natDegree hd, fun hz => words_zero.mp hz 0⟩
  · rename_i hd
    congr 1
    symm
    rw [decide_eq_false_iff_not]
    intro hz; rw [hz] at hd; simp at hd

open scoped Classical in
theorem upperZero_ok (ps : F2P) : ∀ i, i < ps.length →
    upperZero ps i = ok (decide (∀ j, 1 ≤ j → j ≤ i → g ps j = 0))
  | 0, _ => by
    unfold upperZero; congr 1; symm; rw [@decide_eq_true_iff _ (_)]; intro j h1 h2; omega
  | i + 1, hi => by
    unfold upperZero
    rw [rd_g hi, ok_bind]
    split
    · rename_i hw
      congr 1; symm; rw [decide_eq_false_iff_not]; intro h; exact hw (h (i + 1) (by omega) le_rfl)
    · rename_i hw
      rw [upperZero_ok ps i (by omega)]
      congr 1
      rw [decide_eq_decide]
      constructor
      · intro h j h1 h2
        by_cases e : j = i + 1
        · subst e; simpa using hw
        · exact h j h1 (by omega)
      · intro h j h1 h2; exact h j h1 (by omega)

theorem eqInt_ok {ps : F2P} (h : ps ≠ []) (v : Int) :
    eqInt ps v = ok (decide (toPoly ps = C (v : ZMod 2))) := by
  have h0 : 0 < ps.length := List.length_pos_of_ne_nil h
  have key : toPoly ps = C (v : ZMod 2) ↔
      (∀ j, 1 ≤ j → j ≤ ps.length - 1 → g ps j = 0) ∧ g ps 0 = BitVec.ofNat 64 (v % 2).toNat := by
    rw [← toPoly_ofInt, toPoly_inj_bits]
    have hg : ∀ j, g (ofInt v) j = if j = 0 then BitVec.ofNat 64 (v % 2).toNat else 0 := by
      intro j; unfold g ofInt
      cases j <;> simp
    constructor
    · intro hb
      have : ∀ j, g ps j = g (ofInt v) j := by
        intro j
        apply BitVec.eq_of_getLsbD_eq
        intro i hi
        rw [← bitAt_word _ j i hi, ← bitAt_word _ j i hi, hb]
      exact ⟨fun j h1 _ => by rw [this, hg, if_neg (by omega)], by rw [this, hg, if_pos rfl]⟩
    · rintro ⟨h1, h2⟩ t
      unfold bitAt
      congr 1
      rw [hg]
      split
      · rename_i e; rw [e, h2]
      · by_cases hl : t / 64 ≤ ps.length - 1
        · exact h1 _ (by omega) hl
        · exact g_of_le (by omega)
  unfold eqInt
  rw [upperZero_ok ps _ (by omega), ok_bind]
  by_cases hu : ∀ j, 1 ≤ j → j ≤ ps.length - 1 → g ps j = 0
  · rw [if_pos (by simpa using hu), rd_g h0, ok_bind]
    congr 1
    rw [decide_eq_decide, key]
    exact ⟨fun h => ⟨hu, h⟩, fun h => h.2⟩
  · rw [if_neg (by simpa using hu)]
    congr 1; symm; rw [decide_eq_false_iff_not, key]
    exact fun h => hu h.1

theorem eqZero_ok {ps : F2P} (h : ps ≠ []) : eqInt ps 0 = ok (decide (toPoly ps = 0)) := by
  rw [eqInt_ok h]; simp

/-! ### Euclidean division -/

theorem divX_mul_X_pow (p : (ZMod 2)[X]) (k : ℕ) : divX (p * X ^ (k + 1)) = p * X ^ k := by
  ext t
  rw [coeff_divX, coeff_mul_X_pow', coeff_mul_X_pow']
  by_cases h : k ≤ t
  · rw [if_pos (by omega), if_pos h]; congr 1; omega
  · rw [if_neg (by omega), if_neg h]

theorem one_or_zero (x : ZMod 2) : x = 0 ∨ x = 1 := by revert x; decide

theorem two_eq_zero : (2 : (ZMod 2)[X]) = 0 := by
  have : (2 : (ZMod 2)[X]) = C 2 := rfl
  rw [this, show (2 : ZMod 2) = 0 by decide, C_0]

theorem sub_ok {a b : F2P} (ha : a ≠ []) :
    (sub a b).Ok (fun r => toPoly r = toPoly a - toPoly b ∧ Canon r) := by
  refine (add_ok ha).mono fun r ⟨h1, h2⟩ => ⟨?_, h2⟩
  rw [h1]
  linear_combination (toPoly b) * two_eq_zero

theorem div_loop_ok {a b sd : F2P} (hb : toPoly b ≠ 0) {n : ℕ} (hsd : toPoly sd = toPoly b * X ^ n)
    (hsc : Canon sd) (ha : Canon a) (hdeg : (toPoly a).natDegree = n + (toPoly b).natDegree) :
    (forDown (n + 1) 0 (zero, a, sd) (divStep (toPoly b).natDegree)).Ok (fun s =>
      toPoly a = toPoly s.1 * toPoly b + toPoly s.2.1 ∧ (toPoly s.2.1).degree < (toPoly b).degree ∧
      Canon s.1 ∧ Canon s.2.1) := by
  set dv := (toPoly b).natDegree with hdv
  refine (forDown_ok (fun k (s : F2P × F2P × F2P) =>
    toPoly a = toPoly s.1 * toPoly b + toPoly s.2.1 ∧ Canon s.1 ∧ Canon s.2.1 ∧ Canon s.2.2 ∧
    (∀ t, t < k → bitAt s.1 t = false) ∧ (∀ t, k + dv ≤ t → (toPoly s.2.1).coeff t = 0) ∧
    (∀ j, k = j + 1 → toPoly s.2.2 = toPoly b * X ^ j)) (Nat.zero_le _) ?_ ?_).mono ?_
  · refine ⟨by simp, canon_zero, ha, hsc, ?_, ?_, ?_⟩
    · intro t _; exact toPoly_eq_zero.mp toPoly_zero t
    · intro t ht; exact coeff_eq_zero_of_natDegree_lt (by dsimp only; omega)
    · intro j hj; dsimp only; rw [hsd]; congr 2; omega
  · rintro qp ⟨q, r, s⟩ _ hlt ⟨h1, h2, h3, h4, h5, h6, h7⟩
    dsimp only at h1 h2 h3 h4 h5 h6 h7
    have hs := h7 qp rfl
    unfold divStep
    dsimp only
    rw [bit_at_ok, ok_bind]
    have hcs : (toPoly b * X ^ qp).coeff (qp + dv) = 1 := by
      rw [coeff_mul_X_pow', if_pos (by omega), show qp + dv - qp = dv by omega]
      have : (toPoly b).coeff dv ≠ 0 := leadingCoeff_ne_zero.mpr hb
      rcases one_or_zero ((toPoly b).coeff dv) with h | h
      · exact absurd h this
      · exact h
    have hdem : ∀ s' : F2P, toPoly s' = divX (toPoly s) → ∀ j, qp = j + 1 → toPoly s' = toPoly b * X ^ j := by
      intro s' hs' j hj
      rw [hs', hs, hj, divX_mul_X_pow]
    split
    · rename_i hbit
      refine (sub_ok h3.ne_nil).bind fun r' ⟨hr1, hr2⟩ => ?_
      refine (set_bit_new h2.ne_nil (h5 qp (by omega))).bind fun q' ⟨hq1, hq2⟩ => ?_
      refine (demote_1_ok h4.ne_nil).bind fun s' ⟨hs1, hs2⟩ => ?_
      rw [Ok_ok]
      refine ⟨?_, hq2 h2, hr2, hs2, ?_, ?_, hdem s' hs1⟩
      · dsimp only; rw [hq1, hr1, h1, hs]; ring
      · intro t ht
        dsimp only
        have : (toPoly q').coeff t = 0 := by
          rw [hq1, coeff_add, coeff_X_pow, if_neg (by omega), add_zero, coeff_toPoly, h5 t (by omega)]; rfl
        by_contra hc
        exact coeff_ne_zero.mpr (by simpa using hc : bitAt q' t = true) this
      · intro t ht
        dsimp only
        rw [hr1, coeff_sub, hs]
        by_cases e : t = qp + dv
        · subst e
          rw [hcs, coeff_toPoly, if_pos hbit, sub_self]
        · rw [h6 t (by omega), coeff_mul_X_pow', if_pos (by omega),
            coeff_eq_zero_of_natDegree_lt (by omega), sub_zero]
    · rename_i hbit
      refine (demote_1_ok h4.ne_nil).bind fun s' ⟨hs1, hs2⟩ => ?_
      rw [Ok_ok]
      refine ⟨h1, h2, h3, hs2, fun t ht => h5 t (by omega), ?_, hdem s' hs1⟩
      intro t ht
      dsimp only
      by_cases e : t = qp + dv
      · subst e
        rw [coeff_toPoly, if_neg hbit]
      · exact h6 t (by omega)
  · rintro ⟨q, r, s⟩ ⟨h1, h2, h3, _, _, h6, _⟩
    refine ⟨h1, ?_, h2, h3⟩
    dsimp only at h6 ⊢
    rw [degree_eq_natDegree hb, degree_lt_iff_coeff_zero]
    intro m hm; exact h6 m (by omega)

theorem quot_and_rem_throw {a b : F2P} (hbn : b ≠ []) (hb : toPoly b = 0) : quot_and_rem a b = throw := by
  unfold quot_and_rem
  rw [find_degree_ok, ok_bind, find_degree_ok, ok_bind, isZeroTest_ok hbn, ok_bind, if_pos (by simpa using hb)]

theorem quot_and_rem_ok {a b : F2P} (ha : Good a) (hbn : b ≠ []) (hb : toPoly b ≠ 0) :
    (quot_and_rem a b).Ok (fun s => toPoly s.1 = toPoly a / toPoly b ∧ toPoly s.2 = toPoly a % toPoly b ∧
      Canon s.1 ∧ Canon s.2) := by
  unfold quot_and_rem
  rw [find_degree_ok, ok_bind, find_degree_ok, ok_bind, isZeroTest_ok hbn, ok_bind, if_neg (by simpa using hb),
    isZeroTest_ok ha.1, ok_bind]
  split
  · rename_i hz
    simp only [decide_eq_true_eq] at hz
    rw [Ok_ok, hz]
    simp [canon_zero, EuclideanDomain.zero_div, EuclideanDomain.zero_mod]
  · rename_i hz
    simp only [decide_eq_true_eq] at hz
    have hca := ha.2 hz
    split
    · rename_i hlt
      rw [Ok_ok]
      obtain ⟨e1, e2⟩ := poly_div_mod_unique (a := toPoly a) (d := toPoly b) (q := 0) (r := toPoly a)
        (by simp) (degree_lt_degree hlt)
      exact ⟨by rw [e1, toPoly_zero], e2.symm, canon_zero, hca⟩
    · rename_i hge
      refine (promote_n_ok hbn _).bind fun sd ⟨hsd1, hsd2⟩ => ?_
      refine (div_loop_ok hb hsd1 (hsd2 hb) hca (by omega)).bind fun s ⟨h1, h2, h3, h4⟩ => ?_
      rw [Ok_ok]
      obtain ⟨e1, e2⟩ := poly_div_mod_unique h1 h2
      exact ⟨e1.symm, e2.symm, h3, h4⟩

theorem div_ok {a b : F2P} (ha : Good a) (hbn : b ≠ []) (hb : toPoly b ≠ 0) :
    (div a b).Ok (fun r => toPoly r = toPoly a / toPoly b ∧ Canon r) := by
  unfold div
  refine (quot_and_rem_ok ha hbn hb).bind fun s h => ?_
  rw [Ok_ok]; exact ⟨h.1, h.2.2.1⟩

theorem mod_ok {a b : F2P} (ha : Good a) (hbn : b ≠ []) (hb : toPoly b ≠ 0) :
    (mod a b).Ok (fun r => toPoly r = toPoly a % toPoly b ∧ Canon r) := by
  unfold mod
  refine (quot_and_rem_ok ha hbn hb).bind fun s h => ?_
  rw [Ok_ok]; exact ⟨h.2.1, h.2.2.2⟩

/-! ### gcd -/

theorem gcdLoop_ok : ∀ (n : ℕ) (c d : F2P), Canon c → Canon d → toPoly d ≠ 0 → (toPoly d).natDegree < n →
    (gcdLoop n c d).Ok (fun r => IsGcd (toPoly r) (toPoly c) (toPoly d) ∧ Canon r)
  | 0, _, _, _, _, _, h => by omega
  | n + 1, c, d, hc, hd, hdz, hn => by
    unfold gcdLoop
    refine (quot_and_rem_ok hc.good hd.ne_nil hdz).bind fun s ⟨h1, h2, h3, h4⟩ => ?_
    rw [eqZero_ok h4.ne_nil, ok_bind]
    split
    · rename_i hz
      simp only [decide_eq_true_eq] at hz
      rw [Ok_ok]
      exact ⟨isGcd_base (by rw [← h2, hz]), hd⟩
    · rename_i hz
      simp only [decide_eq_true_eq] at hz
      have hlt : (toPoly s.2).natDegree < (toPoly d).natDegree ∨ (toPoly d).natDegree = 0 := by
        by_cases h0 : (toPoly d).natDegree = 0
        · right; exact h0
        · left
          apply natDegree_lt_natDegree hz
          rw [h2]; exact EuclideanDomain.mod_lt _ hdz
      have hlt2 : (toPoly s.2).natDegree < (toPoly d).natDegree := by
        rcases hlt with h | h
        · exact h
        · exfalso
          apply hz
          have : (toPoly s.2).degree < (toPoly d).degree := by
            rw [h2]; exact EuclideanDomain.mod_lt _ hdz
          rw [degree_eq_natDegree hdz, h] at this
          exact degree_eq_bot.mp (Nat.WithBot.lt_zero_iff.mp (by simpa using this))
      refine (gcdLoop_ok n d s.2 hd h4 hz (by omega)).mono fun r ⟨hr1, hr2⟩ => ⟨?_, hr2⟩
      rw [h2] at hr1
      exact isGcd_step hr1

theorem gcd_ok {a b : F2P} (ha : Canon a) (hb : Canon b) :
    (gcd a b).Ok (fun r => IsGcd (toPoly r) (toPoly a) (toPoly b) ∧ Canon r) := by
  unfold gcd
  rw [eqZero_ok ha.ne_nil, ok_bind]
  split
  · rename_i hz
    simp only [decide_eq_true_eq] at hz
    rw [Ok_ok, hz]
    exact ⟨⟨dvd_zero _, dvd_rfl, fun c _ h => h⟩, hb⟩
  · rw [eqZero_ok hb.ne_nil, ok_bind]
    split
    · rename_i hz
      simp only [decide_eq_true_eq] at hz
      rw [Ok_ok, hz]
      exact ⟨⟨dvd_rfl, dvd_zero _, fun c h _ => h⟩, ha⟩
    · rename_i hz
      simp only [decide_eq_true_eq] at hz
      have := natDegree_lt hb.ne_nil
      exact gcdLoop_ok _ a b ha hb hz (by omega)

end F2P
end Spffl
