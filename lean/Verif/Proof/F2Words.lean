/-
Bit-level facts about the word-array model of f2_poly_t: what each primitive does to the bit at each
position, and to the number of words.
-/
import Verif.Model.F2Poly
import Verif.Proof.Bits
import Mathlib.Algebra.Polynomial.FieldDivision
import Mathlib.Algebra.Field.ZMod
import Mathlib.Tactic.LinearCombination

namespace Spffl
open Res Polynomial

namespace F2P

/-- word `j`, zero beyond the end -/
def g (ps : F2P) (j : ℕ) : BitVec 64 := ps.getD j 0

/-- bit `t` of the stored pattern -/
def bitAt (ps : F2P) (t : ℕ) : Bool := (g ps (t / 64)).getLsbD (t % 64)

theorem g_of_le {ps : F2P} {j : ℕ} (h : ps.length ≤ j) : g ps j = 0 := by
  simp [g, h]

theorem g_eq_getElem {ps : F2P} {j : ℕ} (h : j < ps.length) : g ps j = ps[j] := by
  simp [g, h]

theorem rd_g {ps : F2P} {j : ℕ} (h : j < ps.length) : rd ps j = ok (g ps j) := by
  rw [rd_ok h, g_eq_getElem h]

theorem g_set {ps : F2P} {i j : ℕ} {v : BitVec 64} (h : i < ps.length) :
    g (ps.set i v) j = if j = i then v else g ps j := by
  unfold g
  split
  · rename_i e; subst e; simp [h]
  · rename_i e
    simp [List.getD_eq_getElem?_getD, List.getElem?_set, Ne.symm e]

theorem bitAt_of_le {ps : F2P} {t : ℕ} (h : 64 * ps.length ≤ t) : bitAt ps t = false := by
  unfold bitAt; rw [g_of_le (by omega)]; simp

theorem lt_of_bitAt {ps : F2P} {t : ℕ} (h : bitAt ps t = true) : t < 64 * ps.length := by
  by_contra hc; rw [bitAt_of_le (by omega)] at h; cases h

theorem bitAt_word (ps : F2P) (j b : ℕ) (hb : b < 64) : bitAt ps (64 * j + b) = (g ps j).getLsbD b := by
  unfold bitAt
  rw [show (64 * j + b) / 64 = j by omega, show (64 * j + b) % 64 = b by omega]

theorem resize_length (ps : F2P) (n : ℕ) : (resize ps n).length = n := by
  unfold resize; simp; omega

theorem g_resize (ps : F2P) (n j : ℕ) : g (resize ps n) j = if j < n then g ps j else 0 := by
  unfold g resize
  simp only [List.getD_eq_getElem?_getD, List.getElem?_append, List.length_take,
    List.getElem?_take, List.getElem?_replicate]
  split_ifs <;> first | rfl | (exfalso; omega) | skip
  all_goals (try (rw [List.getElem?_eq_none (by omega)]; rfl))

theorem g_replicate (n j : ℕ) : g (List.replicate n 0) j = 0 := by
  unfold g
  simp only [List.getD_eq_getElem?_getD, List.getElem?_replicate]
  split_ifs <;> rfl

theorem bitAt_replicate (n t : ℕ) : bitAt (List.replicate n 0) t = false := by
  unfold bitAt; rw [g_replicate]; simp

theorem bitAt_resize (ps : F2P) (n t : ℕ) :
    bitAt (resize ps n) t = (decide (t < 64 * n) && bitAt ps t) := by
  unfold bitAt
  rw [g_resize]
  by_cases h : t / 64 < n
  · have : t < 64 * n := by omega
    simp [h, this]
  · have : ¬ t < 64 * n := by omega
    simp [h, this]

/-! ### The polynomial denoted -/

/-- The polynomial over F2 a word array denotes: bit `t` is the coefficient of `x^t`. -/
noncomputable def toPoly (ps : F2P) : (ZMod 2)[X] :=
  ∑ t ∈ Finset.range (64 * ps.length), if bitAt ps t then X ^ t else 0

theorem coeff_toPoly (ps : F2P) (t : ℕ) : (toPoly ps).coeff t = if bitAt ps t then 1 else 0 := by
  unfold toPoly
  rw [finset_sum_coeff]
  have : ∀ b, (if bitAt ps b then (X : (ZMod 2)[X]) ^ b else 0).coeff t =
      if t = b then (if bitAt ps b then 1 else 0) else 0 := by
    intro b
    split_ifs <;> simp_all [coeff_X_pow]
  rw [Finset.sum_congr rfl fun b _ => this b, Finset.sum_ite_eq]
  by_cases h1 : t ∈ Finset.range (64 * ps.length)
  · rw [if_pos h1]
  · rw [if_neg h1, bitAt_of_le (by simpa using h1)]; rfl

theorem coeff_ne_zero {ps : F2P} {t : ℕ} : (toPoly ps).coeff t ≠ 0 ↔ bitAt ps t = true := by
  rw [coeff_toPoly]; split_ifs with h <;> simp [h]

theorem toPoly_ext {a b : F2P} (h : ∀ t, bitAt a t = bitAt b t) : toPoly a = toPoly b := by
  ext t; rw [coeff_toPoly, coeff_toPoly, h]

theorem toPoly_inj_bits {a b : F2P} : toPoly a = toPoly b ↔ ∀ t, bitAt a t = bitAt b t := by
  constructor
  · intro h t
    have := congrArg (fun p => p.coeff t) h
    simp only [coeff_toPoly] at this
    split_ifs at this <;> simp_all
  · exact toPoly_ext

theorem toPoly_eq_zero {a : F2P} : toPoly a = 0 ↔ ∀ t, bitAt a t = false := by
  constructor
  · intro h t
    by_contra hc
    have := coeff_ne_zero.mpr (by simpa using hc : bitAt a t = true)
    rw [h] at this; simp at this
  · intro h; ext t; rw [coeff_toPoly, h]; simp

theorem words_zero {a : F2P} : toPoly a = 0 ↔ ∀ j, g a j = 0 := by
  rw [toPoly_eq_zero]
  constructor
  · intro h j
    apply BitVec.eq_of_getLsbD_eq
    intro i hi
    rw [← bitAt_word a j i hi, h]; simp
  · intro h t; unfold bitAt; rw [h]; simp

/-- Canonical storage: exactly the words the degree calls for (one word for the zero polynomial). -/
def Canon (ps : F2P) : Prop := ps.length = (toPoly ps).natDegree / 64 + 1

theorem Canon.ne_nil {ps : F2P} (h : Canon ps) : ps ≠ [] := by
  intro e; unfold Canon at h; rw [e] at h; simp at h

theorem Canon.pos {ps : F2P} (h : Canon ps) : 0 < ps.length := by unfold Canon at h; omega

/-- two canonical arrays denoting the same polynomial are identical -/
theorem Canon.eq {a b : F2P} (ha : Canon a) (hb : Canon b) (h : toPoly a = toPoly b) : a = b := by
  have hl : a.length = b.length := by rw [ha, hb, h]
  apply List.ext_getElem hl
  intro i h1 h2
  rw [← g_eq_getElem h1, ← g_eq_getElem h2]
  apply BitVec.eq_of_getLsbD_eq
  intro k hk
  rw [← bitAt_word a i k hk, ← bitAt_word b i k hk]
  exact toPoly_inj_bits.mp h _

theorem natDegree_lt {ps : F2P} (h : ps ≠ []) : (toPoly ps).natDegree < 64 * ps.length := by
  have h0 : 0 < ps.length := List.length_pos_of_ne_nil h
  by_cases hz : toPoly ps = 0
  · rw [hz]; simp; omega
  · apply lt_of_bitAt (ps := ps)
    rw [← coeff_ne_zero]
    exact (leadingCoeff_ne_zero.mpr hz)

theorem canon_of_last {ps : F2P} (h : ps ≠ []) (hl : g ps (ps.length - 1) ≠ 0) : Canon ps := by
  have h0 : 0 < ps.length := List.length_pos_of_ne_nil h
  have h1 := natDegree_lt h
  have : ∃ b, b < 64 ∧ (g ps (ps.length - 1)).getLsbD b = true := by
    by_contra hc
    push Not at hc
    apply hl
    apply BitVec.eq_of_getLsbD_eq
    intro i hi
    have := hc i hi
    simpa using this
  obtain ⟨b, hb, hbt⟩ := this
  rw [← bitAt_word ps _ b hb, ← coeff_ne_zero] at hbt
  have := le_natDegree_of_ne_zero hbt
  unfold Canon
  omega

theorem canon_single (w : BitVec 64) : Canon [w] := by
  have := natDegree_lt (ps := [w]) (by simp)
  unfold Canon
  simp only [List.length_singleton] at *
  omega

theorem Canon.last {ps : F2P} (h : Canon ps) (hz : toPoly ps ≠ 0) : g ps (ps.length - 1) ≠ 0 := by
  intro h0
  have h1 : bitAt ps (toPoly ps).natDegree = true := coeff_ne_zero.mp (leadingCoeff_ne_zero.mpr hz)
  unfold bitAt at h1
  unfold Canon at h
  rw [show (toPoly ps).natDegree / 64 = ps.length - 1 by omega, h0] at h1
  simp at h1

theorem Canon.of_zero {ps : F2P} (h : Canon ps) (hz : toPoly ps = 0) : ps = [0] := by
  have hl : ps.length = 1 := by unfold Canon at h; rw [h, hz]; simp
  have := words_zero.mp hz 0
  obtain ⟨w, rfl⟩ := List.length_eq_one_iff.mp hl
  simpa [g] using this

/-! ### Degree and trimming -/

theorem log2_word {w : BitVec 64} (h : w ≠ 0) : find_msb_64 w.toNat = ok (Nat.log 2 w.toNat) :=
  find_msb_64_ok (by intro e; apply h; apply BitVec.eq_of_toNat_eq; simpa using e) w.isLt

theorem word_top {w : BitVec 64} (h : w ≠ 0) :
    Nat.log 2 w.toNat < 64 ∧ w.getLsbD (Nat.log 2 w.toNat) = true ∧
      ∀ k, Nat.log 2 w.toNat < k → w.getLsbD k = false := by
  have h0 : w.toNat ≠ 0 := by intro e; apply h; apply BitVec.eq_of_toNat_eq; simpa using e
  refine ⟨Nat.log_lt_of_lt_pow h0 w.isLt, ?_, ?_⟩
  · unfold BitVec.getLsbD
    rw [← Nat.log2_eq_log_two]
    exact Nat.testBit_log2 h0
  · intro k hk
    unfold BitVec.getLsbD
    apply Nat.testBit_lt_two_pow
    exact (Nat.lt_pow_succ_log_self (by norm_num) _).trans_le (Nat.pow_le_pow_right (by norm_num) hk)

theorem degLoop_ok (ps : F2P) : ∀ i, i ≤ ps.length → (∀ t, 64 * i ≤ t → bitAt ps t = false) →
    degLoop ps i = ok (toPoly ps).natDegree
  | 0, _, h => by
    have : toPoly ps = 0 := toPoly_eq_zero.mpr fun t => h t (by omega)
    simp [degLoop, this]
  | i + 1, hi, h => by
    unfold degLoop
    rw [rd_g (by omega), ok_bind]
    split
    · rename_i hw
      rw [log2_word hw, ok_bind]
      obtain ⟨h1, h2, h3⟩ := word_top hw
      congr 1
      rw [← bitAt_word ps i _ h1, ← coeff_ne_zero] at h2
      refine le_antisymm ?_ ?_
      · have := le_natDegree_of_ne_zero h2; omega
      · rw [natDegree_le_iff_coeff_eq_zero]
        intro N hN
        by_contra hc
        have hb := coeff_ne_zero.mp hc
        by_cases hN2 : 64 * (i + 1) ≤ N
        · rw [h N hN2] at hb; cases hb
        · obtain ⟨k, rfl⟩ : ∃ k, N = 64 * i + k := ⟨N - 64 * i, by omega⟩
          rw [bitAt_word ps i k (by omega), h3 k (by omega)] at hb; cases hb
    · rename_i hw
      simp only [not_not] at hw
      refine degLoop_ok ps i (by omega) fun t ht => ?_
      by_cases h2 : 64 * (i + 1) ≤ t
      · exact h t h2
      · unfold bitAt; rw [show t / 64 = i by omega, hw]; simp

theorem find_degree_ok (ps : F2P) : find_degree ps = ok (toPoly ps).natDegree :=
  degLoop_ok ps ps.length le_rfl fun _ ht => bitAt_of_le ht

theorem toPoly_resize {ps : F2P} {n : ℕ} (h : (toPoly ps).natDegree < 64 * n) :
    toPoly (resize ps n) = toPoly ps := by
  apply toPoly_ext
  intro t
  rw [bitAt_resize]
  by_cases ht : t < 64 * n
  · simp [ht]
  · simp only [ht, decide_false, Bool.false_and]
    by_contra hc
    have : bitAt ps t = true := by cases h : bitAt ps t <;> simp_all
    have := le_natDegree_of_ne_zero (coeff_ne_zero.mpr this)
    omega

theorem trim_ok {ps : F2P} (h : ps ≠ []) :
    (trim_parts ps).Ok (fun r => toPoly r = toPoly ps ∧ Canon r) := by
  unfold trim_parts
  rw [find_degree_ok, ok_bind]
  have h1 := natDegree_lt h
  have h0 : 0 < ps.length := List.length_pos_of_ne_nil h
  split
  · have h2 : toPoly (resize ps ((toPoly ps).natDegree / 64 + 1)) = toPoly ps :=
      toPoly_resize (by omega)
    simp only [Ok_ok]
    refine ⟨h2, ?_⟩
    unfold Canon
    rw [h2, resize_length]
  · simp only [Ok_ok, true_and]; unfold Canon; omega

theorem trim_canon {ps : F2P} (h : Canon ps) : trim_parts ps = ok ps := by
  unfold trim_parts
  rw [find_degree_ok, ok_bind, if_neg]
  unfold Canon at h; omega

/-! ### Array loops -/

/-- a loop whose body stores `f i` at index `i` for each index -/
theorem forUp_store {body : ℕ → F2P → Res F2P} {f : ℕ → BitVec 64} {lo hi : ℕ} {ps : F2P}
    (hle : lo ≤ hi) (hhi : hi ≤ ps.length)
    (hb : ∀ i s, lo ≤ i → i < hi → s.length = ps.length →
      (∀ j, g s j = if lo ≤ j ∧ j < i then f j else g ps j) → body i s = ok (s.set i (f i))) :
    (forUp lo hi ps body).Ok (fun r => r.length = ps.length ∧
      ∀ j, g r j = if lo ≤ j ∧ j < hi then f j else g ps j) := by
  refine forUp_ok (fun k r => r.length = ps.length ∧
      ∀ j, g r j = if lo ≤ j ∧ j < k then f j else g ps j) hle ⟨rfl, ?_⟩ ?_
  · intro j; rw [if_neg (by omega)]
  · rintro i s h1 h2 ⟨h3, h4⟩
    rw [hb i s h1 h2 h3 h4, Ok_ok]
    refine ⟨by simpa using h3, fun j => ?_⟩
    rw [g_set (by omega)]
    by_cases hj : j = i
    · subst hj; rw [if_pos rfl, if_pos (by omega)]
    · rw [if_neg hj, h4]
      by_cases h5 : lo ≤ j ∧ j < i
      · rw [if_pos h5, if_pos (by omega)]
      · rw [if_neg h5, if_neg (by omega)]

/-- a descending loop whose body stores `f i` at index `i + off` -/
theorem forDown_store {body : ℕ → F2P → Res F2P} {f : ℕ → BitVec 64} {lo hi off : ℕ} {ps : F2P}
    (hle : lo ≤ hi) (hhi : hi + off ≤ ps.length)
    (hb : ∀ i s, lo ≤ i → i < hi → s.length = ps.length →
      (∀ j, g s j = if i + 1 + off ≤ j ∧ j < hi + off then f (j - off) else g ps j) →
        body i s = ok (s.set (i + off) (f i))) :
    (forDown hi lo ps body).Ok (fun r => r.length = ps.length ∧
      ∀ j, g r j = if lo + off ≤ j ∧ j < hi + off then f (j - off) else g ps j) := by
  refine forDown_ok (fun k r => r.length = ps.length ∧
      ∀ j, g r j = if k + off ≤ j ∧ j < hi + off then f (j - off) else g ps j) hle ⟨rfl, ?_⟩ ?_
  · intro j; rw [if_neg (by omega)]
  · rintro i s h1 h2 ⟨h3, h4⟩
    rw [hb i s h1 h2 h3 h4, Ok_ok]
    refine ⟨by simpa using h3, fun j => ?_⟩
    rw [g_set (by omega)]
    by_cases hj : j = i + off
    · subst hj; rw [if_pos rfl, if_pos (by omega)]; simp
    · rw [if_neg hj, h4]
      by_cases h5 : i + 1 + off ≤ j ∧ j < hi + off
      · rw [if_pos h5, if_pos (by omega)]
      · rw [if_neg h5, if_neg (by omega)]

theorem ne_nil_of_length {ps : F2P} (h : 0 < ps.length) : ps ≠ [] := by
  rintro rfl; simp at h

/-! ### Addition -/

theorem toPoly_xor {a b r : F2P} (h : ∀ t, bitAt r t = (bitAt a t ^^ bitAt b t)) :
    toPoly r = toPoly a + toPoly b := by
  ext t
  rw [coeff_add, coeff_toPoly, coeff_toPoly, coeff_toPoly, h]
  cases bitAt a t <;> cases bitAt b t <;> first | rfl | decide

theorem bitAt_xor {a b r : F2P} (h : ∀ j, g r j = g a j ^^^ g b j) (t : ℕ) :
    bitAt r t = (bitAt a t ^^ bitAt b t) := by
  unfold bitAt; rw [h]; simp

theorem add_core {a b : F2P} {n m : ℕ} {src : F2P} (hn : n = min a.length b.length)
    (hm : m = max a.length b.length) (hpos : 0 < m)
    (hsrc : ∀ j, n ≤ j → g src j = g a j ^^^ g b j) (hsl : src.length = m) :
    (do let out ← forUp 0 n (List.replicate m 0) (xorStep a b)
        let out ← forUp n m out (copyStep src)
        trim_parts out).Ok (fun r => toPoly r = toPoly a + toPoly b ∧ Canon r) := by
  have h1 : (forUp 0 n (List.replicate m 0) (xorStep a b)).Ok _ :=
    forUp_store (f := fun i => g a i ^^^ g b i) (Nat.zero_le _) (by simp; omega) fun i s _ h2 h3 _ => by
      unfold xorStep
      rw [rd_g (by omega), ok_bind, rd_g (by omega), ok_bind, wr_ok]
      simp at h3; omega
  refine h1.bind fun o1 ⟨hl1, hg1⟩ => ?_
  simp only [List.length_replicate] at hl1
  have h2 : (forUp n m o1 (copyStep src)).Ok _ :=
    forUp_store (f := fun i => g src i) (by omega) (by omega) fun i s _ h2 h3 _ => by
      unfold copyStep
      rw [rd_g (by omega), ok_bind, wr_ok]
      omega
  refine h2.bind fun o2 ⟨hl2, hg2⟩ => ?_
  refine (trim_ok (ne_nil_of_length (by omega))).mono fun r ⟨hr1, hr2⟩ => ⟨?_, hr2⟩
  rw [hr1]
  refine toPoly_xor (bitAt_xor fun j => ?_)
  rw [hg2]
  split
  · exact hsrc j (by omega)
  · rw [hg1]
    split
    · rfl
    · rw [g_of_le (ps := a) (by omega), g_of_le (ps := b) (by omega), g_replicate]; rfl

theorem add_ok {a b : F2P} (ha : a ≠ []) :
    (add a b).Ok (fun r => toPoly r = toPoly a + toPoly b ∧ Canon r) := by
  have h0 : 0 < a.length := List.length_pos_of_ne_nil ha
  unfold add
  split
  · refine add_core (by omega) (by omega) (by omega) (fun j hj => ?_) rfl
    rw [g_of_le hj]; simp
  · refine add_core (by omega) (by omega) (by omega) (fun j hj => ?_) rfl
    rw [g_of_le (ps := b) hj]; simp

/-! ### Shifts -/

theorem growIf_ok {ps : F2P} {mask : BitVec 64} (h : ps ≠ []) :
    growIf ps mask = ok (if g ps (ps.length - 1) &&& mask ≠ 0 then resize ps (ps.length + 1) else ps) := by
  have h0 : 0 < ps.length := List.length_pos_of_ne_nil h
  unfold growIf
  rw [rd_g (by omega), ok_bind]
  split <;> rfl

theorem shiftUp_ok {ps : F2P} (h : ps ≠ []) {k : ℕ} :
    (shiftUp ps k).Ok (fun r => r.length = ps.length ∧
      ∀ j, j < ps.length → g r j = if j = 0 then g ps 0 <<< k else
        (g ps j <<< k) ||| (g ps (j - 1) >>> (64 - k))) := by
  have h0 : 0 < ps.length := List.length_pos_of_ne_nil h
  unfold shiftUp
  have h1 := forDown_store (lo := 1) (hi := ps.length) (off := 0) (ps := ps)
    (body := fun i ps => do
      let x ← rd ps i
      let y ← rd ps (i - 1)
      wr ps i ((x <<< k) ||| (y >>> (64 - k))))
    (f := fun i => (g ps i <<< k) ||| (g ps (i - 1) >>> (64 - k))) (by omega) (by omega)
    fun i s h1 h2 h3 h4 => by
      rw [rd_g (by omega), ok_bind, rd_g (by omega), ok_bind, wr_ok (by omega), h4, h4,
        if_neg (by omega), if_neg (by omega)]; rfl
  refine h1.bind fun o ⟨hl, hg⟩ => ?_
  rw [rd_g (by omega), ok_bind, wr_ok (by omega), Ok_ok]
  refine ⟨by simpa using hl, fun j hj => ?_⟩
  rw [g_set (by omega), hg, hg]
  by_cases e : j = 0
  · subst e; simp
  · rw [if_neg e, if_pos (by omega), if_neg e]; simp

theorem bitAt_shiftUp {ps r : F2P} {k : ℕ} (hk : k ≤ 64) (hk0 : 0 < k) (hl : r.length = ps.length)
    (hg : ∀ j, j < ps.length → g r j = if j = 0 then g ps 0 <<< k else
        (g ps j <<< k) ||| (g ps (j - 1) >>> (64 - k))) {t : ℕ} (ht : t < 64 * ps.length) :
    bitAt r t = (decide (k ≤ t) && bitAt ps (t - k)) := by
  unfold bitAt
  rw [hg _ (by omega)]
  by_cases e : t / 64 = 0
  · rw [if_pos e, BitVec.getLsbD_shiftLeft]
    have h1 : t % 64 = t := by omega
    have h2 : (t - k) / 64 = 0 := by omega
    have h3 : (t - k) % 64 = t - k := by omega
    rw [h1, h2, h3]
    by_cases hkt : k ≤ t
    · simp [hkt, show ¬ t < k by omega, show t < 64 by omega]
    · simp [hkt, show t < k by omega]
  · rw [if_neg e, BitVec.getLsbD_or, BitVec.getLsbD_shiftLeft, BitVec.getLsbD_ushiftRight]
    have hkt : k ≤ t := by omega
    by_cases hb : t % 64 < k
    · have h2 : (t - k) / 64 = t / 64 - 1 := by omega
      have h3 : (t - k) % 64 = 64 - k + t % 64 := by omega
      rw [h2, h3]
      simp [hb, hkt]
    · have h2 : (t - k) / 64 = t / 64 := by omega
      have h3 : (t - k) % 64 = t % 64 - k := by omega
      rw [h2, h3]
      rw [BitVec.getLsbD_of_ge (g ps (t / 64 - 1)) (64 - k + t % 64) (by omega)]
      simp [hb, hkt, show t % 64 < 64 by omega]

theorem toPoly_shift {ps r : F2P} {k : ℕ} (h : ∀ t, bitAt r t = (decide (k ≤ t) && bitAt ps (t - k))) :
    toPoly r = toPoly ps * X ^ k := by
  ext t
  rw [coeff_mul_X_pow', coeff_toPoly, h]
  by_cases hk : k ≤ t
  · simp [hk, coeff_toPoly]
  · simp [hk]

/-- shift by `k` bits after growing when one of the top `k` bits is set -/
theorem grow_shift_ok {ps : F2P} (h : ps ≠ []) {k : ℕ} (hk : k ≤ 64) (hk0 : 0 < k) {mask : BitVec 64}
    (hmask : ∀ b, mask.getLsbD b = (decide (64 - k ≤ b) && decide (b < 64))) :
    (do let q ← growIf ps mask; shiftUp q k).Ok (fun r => toPoly r = toPoly ps * X ^ k ∧
      r.length = (if g ps (ps.length - 1) &&& mask ≠ 0 then ps.length + 1 else ps.length)) := by
  have h0 : 0 < ps.length := List.length_pos_of_ne_nil h
  rw [growIf_ok h, ok_bind]
  split
  · rename_i hm
    refine (shiftUp_ok (ne_nil_of_length (by rw [resize_length]; omega))).mono fun r ⟨hl, hg⟩ =>
      ⟨?_, by rw [hl, resize_length]⟩
    rw [← toPoly_resize (ps := ps) (n := ps.length + 1) (by have := natDegree_lt h; omega)]
    refine toPoly_shift fun t => ?_
    by_cases ht : t < 64 * (resize ps (ps.length + 1)).length
    · exact bitAt_shiftUp hk hk0 hl hg ht
    · rw [bitAt_of_le (by omega), bitAt_resize]
      rw [resize_length] at ht
      rw [bitAt_of_le (ps := ps) (by omega)]; simp
  · rename_i hm
    simp only [not_not] at hm
    refine (shiftUp_ok h).mono fun r ⟨hl, hg⟩ => ⟨?_, hl⟩
    refine toPoly_shift fun t => ?_
    by_cases ht : t < 64 * ps.length
    · exact bitAt_shiftUp hk hk0 hl hg ht
    · rw [bitAt_of_le (by omega)]
      symm
      rw [Bool.and_eq_false_iff]
      right
      by_cases h2 : 64 * ps.length ≤ t - k
      · exact bitAt_of_le h2
      · obtain ⟨b, hb⟩ : ∃ b, t - k = 64 * (ps.length - 1) + b := ⟨t - k - 64 * (ps.length - 1), by omega⟩
        rw [hb, bitAt_word _ _ _ (by omega)]
        have := congrArg (fun w => w.getLsbD b) hm
        simp only [BitVec.getLsbD_and, hmask] at this
        simpa [show b < 64 by omega, show 64 - k ≤ b by omega] using this

theorem mask1 (b : ℕ) : (0x8000000000000000#64).getLsbD b = (decide (64 - 1 ≤ b) && decide (b < 64)) := by
  by_cases hb : b < 64
  · have : ∀ b : Fin 64, (0x8000000000000000#64).getLsbD b.1 =
      (decide (64 - 1 ≤ b.1) && decide (b.1 < 64)) := by decide
    exact this ⟨b, hb⟩
  · rw [BitVec.getLsbD_of_ge _ _ (by omega)]; simp [hb]

theorem mask4 (b : ℕ) : (0xf000000000000000#64).getLsbD b = (decide (64 - 4 ≤ b) && decide (b < 64)) := by
  by_cases hb : b < 64
  · have : ∀ b : Fin 64, (0xf000000000000000#64).getLsbD b.1 =
      (decide (64 - 4 ≤ b.1) && decide (b.1 < 64)) := by decide
    exact this ⟨b, hb⟩
  · rw [BitVec.getLsbD_of_ge _ _ (by omega)]; simp [hb]

theorem canon_grow {ps r : F2P} (hc : Canon ps) {k : ℕ} (hk : k ≤ 64) {mask : BitVec 64}
    (hmask : ∀ b, mask.getLsbD b = (decide (64 - k ≤ b) && decide (b < 64)))
    (h1 : toPoly r = toPoly ps * X ^ k)
    (h2 : r.length = (if g ps (ps.length - 1) &&& mask ≠ 0 then ps.length + 1 else ps.length)) :
    Canon r := by
  by_cases hz : toPoly ps = 0
  · have := hc.of_zero hz
    subst this
    have hl : r.length = 1 := by rw [h2]; simp [g]
    unfold Canon; rw [hl, h1, hz]; simp
  · have hd : (toPoly r).natDegree = (toPoly ps).natDegree + k := by
      rw [h1, natDegree_mul_X_pow k hz]
    have hlt := natDegree_lt hc.ne_nil
    have hrl := natDegree_lt (ps := r) (by
      apply ne_nil_of_length; rw [h2]; have := hc.pos; split <;> omega)
    have hc' := hc
    unfold Canon at hc' ⊢
    split at h2
    · rename_i hm
      have : 64 * ps.length ≤ (toPoly ps).natDegree + k := by
        by_contra hcon
        apply hm
        apply BitVec.eq_of_getLsbD_eq
        intro b hb
        rw [BitVec.getLsbD_and, hmask]
        by_cases hb2 : 64 - k ≤ b
        · rw [← bitAt_word ps _ b hb]
          have : bitAt ps (64 * (ps.length - 1) + b) = false := by
            by_contra hcc
            have := le_natDegree_of_ne_zero (coeff_ne_zero.mpr (by simpa using hcc))
            omega
          rw [this]; simp
        · simp [hb2]
      omega
    · omega

theorem promote_1_ok {ps : F2P} (h : ps ≠ []) :
    (promote_1 ps).Ok (fun r => toPoly r = toPoly ps * X ∧ r ≠ [] ∧
      (Canon ps → Canon r)) := by
  refine (grow_shift_ok h (k := 1) (by omega) (by omega) mask1).mono fun r ⟨h1, h2⟩ => ⟨by simpa using h1, ?_, ?_⟩
  · have h0 : 0 < ps.length := List.length_pos_of_ne_nil h
    apply ne_nil_of_length
    rw [h2]; split <;> omega
  · intro hc; exact canon_grow hc (by omega) mask1 h1 h2

theorem promote_4_ok {ps : F2P} (hc : Canon ps) :
    (promote_4 ps).Ok (fun r => toPoly r = toPoly ps * X ^ 4 ∧ Canon r) := by
  refine (grow_shift_ok hc.ne_nil (k := 4) (by omega) (by omega) mask4).mono fun r ⟨h1, h2⟩ => ⟨h1, ?_⟩
  exact canon_grow hc (by omega) mask4 h1 h2

theorem demote_1_ok {ps : F2P} (h : ps ≠ []) :
    (demote_1 ps).Ok (fun r => toPoly r = divX (toPoly ps) ∧ Canon r) := by
  have h0 : 0 < ps.length := List.length_pos_of_ne_nil h
  unfold demote_1
  have h1 := forUp_store (lo := 0) (hi := ps.length - 1) (ps := ps)
    (body := fun i ps => do
      let x ← rd ps i
      let y ← rd ps (i + 1)
      wr ps i ((x >>> 1) ||| (y <<< 63)))
    (f := fun i => (g ps i >>> 1) ||| (g ps (i + 1) <<< 63)) (by omega) (by omega)
    fun i s h1 h2 h3 h4 => by
      rw [rd_g (by omega), ok_bind, rd_g (by omega), ok_bind, wr_ok (by omega), h4, h4,
        if_neg (by omega), if_neg (by omega)]
  refine h1.bind fun o ⟨hl, hg⟩ => ?_
  rw [rd_g (by omega), ok_bind, wr_ok (by omega), ok_bind]
  have hlast : g o (o.length - 1) = g ps (ps.length - 1) := by
    rw [hg, if_neg (by omega), hl]
  rw [hlast]
  set r := o.set (o.length - 1) (g ps (ps.length - 1) >>> 1) with hr
  have hrl : r.length = ps.length := by simp [hr, hl]
  have hrg : ∀ j, g r j = (g ps j >>> 1) ||| (g ps (j + 1) <<< 63) := by
    intro j
    rw [hr, g_set (by omega)]
    split
    · rename_i e; subst e
      rw [hl, g_of_le (ps := ps) (j := ps.length - 1 + 1) (by omega)]; simp
    · rw [hg]
      split
      · rfl
      · rw [g_of_le (ps := ps) (by omega), g_of_le (ps := ps) (by omega)]; simp
  have hp : toPoly r = divX (toPoly ps) := by
    ext t
    rw [coeff_divX, coeff_toPoly, coeff_toPoly]
    have : bitAt r t = bitAt ps (t + 1) := by
      unfold bitAt
      rw [hrg, BitVec.getLsbD_or, BitVec.getLsbD_shiftLeft, BitVec.getLsbD_ushiftRight]
      by_cases hb : t % 64 = 63
      · have e1 : (t + 1) / 64 = t / 64 + 1 := by omega
        have e2 : (t + 1) % 64 = 0 := by omega
        rw [hb, e1, e2, BitVec.getLsbD_of_ge (g ps (t / 64)) _ (by omega)]
        simp
      · have e1 : (t + 1) / 64 = t / 64 := by omega
        have e2 : (t + 1) % 64 = 1 + t % 64 := by omega
        rw [e1, e2]
        simp [show t % 64 < 63 by omega]
    rw [this]
  split
  · refine (trim_ok (ne_nil_of_length (by omega))).mono fun q ⟨hq1, hq2⟩ => ⟨?_, hq2⟩
    rw [hq1, hp]
  · rename_i hne
    rw [Ok_ok]
    refine ⟨hp, canon_of_last (ne_nil_of_length (by omega)) ?_⟩
    rw [hrg, hrl, g_of_le (ps := ps) (j := ps.length - 1 + 1) (by omega)]
    simpa using hne

end F2P
end Spffl
