/-
f2_poly_t: coefficient setting, hexadecimal printing and reading.
-/
import Verif.Proof.F2Poly2

namespace Spffl
open Res Polynomial

namespace F2P

/-! ### `set_coeff` -/

theorem ishl_one {k : ℕ} (h : k < 31) : ishl 1 (k : Int) = ok ((2 : Int) ^ k) := by
  have : ∀ k : Fin 31, ishl 1 ((k.1 : ℕ) : Int) = ok ((2 : Int) ^ k.1) := by decide
  exact this ⟨k, h⟩

theorem ofInt_pow {k : ℕ} (h : k < 31) : BitVec.ofInt 64 ((2 : Int) ^ k) = 1#64 <<< k := by
  have : ∀ k : Fin 31, BitVec.ofInt 64 ((2 : Int) ^ k.1) = 1#64 <<< k.1 := by decide
  exact this ⟨k, h⟩

theorem ofInt_not_pow {k : ℕ} (h : k < 31) : BitVec.ofInt 64 (-(2 : Int) ^ k - 1) = ~~~ (1#64 <<< k) := by
  have : ∀ k : Fin 31, BitVec.ofInt 64 (-(2 : Int) ^ k.1 - 1) = ~~~ (1#64 <<< k.1) := by decide
  exact this ⟨k, h⟩

theorem set_coeff_true {ps : F2P} {n : ℕ} (hn : n % 64 < 31) : set_coeff ps n true = set_bit ps n := by
  unfold set_coeff set_bit
  rw [if_neg (by simp)]
  simp only [show ¬ (n : Int) < 0 by omega, if_false]
  have e2 : ((n : Int) % 64).toNat = n % 64 := by omega
  have e3 : ((n : Int) % 64) = ((n % 64 : ℕ) : Int) := by omega
  rw [e2, e3, ishl_one hn]
  simp only [ok_bind, if_true, ofInt_pow hn]

theorem set_coeff_false {ps : F2P} (hc : ps ≠ []) {n : ℕ} (hn : n % 64 < 31) :
    (set_coeff ps n false).Ok (fun r => (∀ t, bitAt r t = (bitAt ps t && decide (t ≠ n))) ∧
      (Canon ps → Canon r)) := by
  unfold set_coeff
  by_cases hr : (ps.length : Int) ≤ (n : Int) / 64
  · rw [if_pos ⟨Or.inr hr, rfl⟩, Ok_ok]
    refine ⟨fun t => ?_, fun h => h⟩
    by_cases e : t = n
    · subst e; rw [bitAt_of_le (by omega)]; simp
    · simp [e]
  · rw [if_neg (by omega), if_neg (by omega), if_neg hr]
    have e1 : ((n : Int) / 64).toNat = n / 64 := by omega
    have e3 : ((n : Int) % 64) = ((n % 64 : ℕ) : Int) := by omega
    dsimp only
    rw [e1, e3, ishl_one hn, rd_g (by omega)]
    simp only [ok_bind, Bool.false_eq_true, if_false, ofInt_not_pow hn]
    rw [wr_ok (by omega), ok_bind]
    refine (trim_ok (ne_nil_of_length (by simp; omega))).mono fun r ⟨h1, h2⟩ => ⟨fun t => ?_, fun _ => h2⟩
    rw [toPoly_inj_bits.mp h1 t]
    unfold bitAt
    rw [g_set (by omega)]
    split
    · rename_i e
      rw [BitVec.getLsbD_and, BitVec.getLsbD_not, one_shl _ _ (by omega), e]
      simp only [show t % 64 < 64 by omega, decide_true, Bool.true_and]
      congr 1
      have : t % 64 = n % 64 ↔ t = n := by omega
      simp [this]
    · rename_i e
      have : t ≠ n := by rintro rfl; exact e rfl
      simp [this]

/-! ### Hexadecimal -/

/-- `k` hexadecimal digits of `n`, zero-filled -/
def hexFix : ℕ → ℕ → List Char
  | 0, _ => []
  | k + 1, n => hexFix k (n / 16) ++ [Nat.digitChar (n % 16)]

theorem hexOf_lt {n : ℕ} (h : n < 16) : hexOf n = [Nat.digitChar n] := by
  rw [hexOf]; simp [h]

theorem hexOf_ge {n : ℕ} (h : 16 ≤ n) : hexOf n = hexOf (n / 16) ++ [Nat.digitChar (n % 16)] := by
  rw [hexOf]; simp [show ¬ n < 16 by omega]

theorem hexFix_length : ∀ (k n : ℕ), (hexFix k n).length = k
  | 0, _ => rfl
  | k + 1, n => by simp [hexFix, hexFix_length k]

theorem hexFix_zero : ∀ k : ℕ, hexFix k 0 = List.replicate k '0'
  | 0 => rfl
  | k + 1 => by
    rw [hexFix, hexFix_zero k, List.replicate_succ']; rfl

theorem pad_hexOf : ∀ (k n : ℕ), 0 < k → n < 16 ^ k →
    List.replicate (k - (hexOf n).length) '0' ++ hexOf n = hexFix k n
  | 0, _, h, _ => by omega
  | k + 1, n, _, hn => by
    by_cases hlt : n < 16
    · rw [hexOf_lt hlt, hexFix, show n / 16 = 0 by omega, hexFix_zero, show n % 16 = n by omega]
      simp
    · rw [hexOf_ge (by omega), hexFix]
      have hk : 0 < k := by
        rcases Nat.eq_zero_or_pos k with h | h
        · subst h; simp at hn; omega
        · exact h
      rw [← pad_hexOf k (n / 16) hk (by rw [pow_succ] at hn; omega)]
      simp

theorem pad16_hexOf (w : BitVec 64) : pad16 (hexOf w.toNat) = hexFix 16 w.toNat := by
  unfold pad16
  exact pad_hexOf 16 _ (by omega) (by have := w.isLt; norm_num at *; exact this)

theorem hexOf_append : ∀ (k a b : ℕ), 0 < a → b < 16 ^ k → hexOf (a * 16 ^ k + b) = hexOf a ++ hexFix k b
  | 0, a, b, _, hb => by
    have : b = 0 := by simpa using hb
    subst this; simp [hexFix]
  | k + 1, a, b, ha, hb => by
    have hP : 0 < 16 ^ k := by positivity
    have h16 : 16 ≤ a * 16 ^ (k + 1) + b := by
      have : 16 ^ (k + 1) ≤ a * 16 ^ (k + 1) := Nat.le_mul_of_pos_left _ ha
      rw [pow_succ] at this ⊢; omega
    rw [hexOf_ge h16, hexFix, ← List.append_assoc]
    have e : a * 16 ^ (k + 1) = 16 * (a * 16 ^ k) := by rw [pow_succ]; ring
    rw [e, show (16 * (a * 16 ^ k) + b) / 16 = a * 16 ^ k + b / 16 by omega,
      show (16 * (a * 16 ^ k) + b) % 16 = b % 16 by omega,
      hexOf_append k a (b / 16) ha (by rw [pow_succ] at hb; omega)]

theorem val_drop : ∀ (ps : F2P) (i : ℕ), i < ps.length →
    val (ps.drop i) = (g ps i).toNat + 2 ^ 64 * val (ps.drop (i + 1))
  | [], _, h => by simp at h
  | w :: ps, 0, _ => by simp [val, g]
  | w :: ps, i + 1, h => by
    have := val_drop ps i (by simpa using h)
    simpa [g] using this

theorem leaderPos_ok (ps : F2P) : ∀ i, 0 < i → i ≤ ps.length → (∀ j, i ≤ j → g ps j = 0) →
    (leaderPos ps i).Ok (fun lp => lp < ps.length ∧ (g ps lp ≠ 0 ∨ lp = 0) ∧ ∀ j, lp < j → g ps j = 0)
  | 0, h, _, _ => by omega
  | i + 1, _, hi, h => by
    unfold leaderPos
    rw [rd_g (by omega), ok_bind]
    split
    · rename_i hw
      rw [Ok_ok]
      exact ⟨by omega, hw, fun j hj => h j (by omega)⟩
    · rename_i hw
      push Not at hw
      refine leaderPos_ok ps i (by omega) (by omega) fun j hj => ?_
      by_cases e : j = i
      · subst e; exact hw.1
      · exact h j (by omega)

theorem val_zero_of {ps : F2P} (h : ∀ j, g ps j = 0) : val ps = 0 := by
  apply Nat.eq_of_testBit_eq
  intro t; rw [testBit_val]; unfold bitAt; rw [h]; simp

theorem g_drop (ps : F2P) (i j : ℕ) : g (ps.drop i) j = g ps (i + j) := by
  unfold g; simp [List.getD_eq_getElem?_getD]

theorem print_ok {ps : F2P} (h : ps ≠ []) : print ps = ok (hexOf (nval (toPoly ps))) := by
  have h0 : 0 < ps.length := List.length_pos_of_ne_nil h
  rw [← Ok_eq_iff]
  unfold print
  rw [if_neg (by omega)]
  refine (leaderPos_ok ps ps.length h0 le_rfl (fun j hj => g_of_le hj)).bind fun lp ⟨h1, h2, h3⟩ => ?_
  have hdz : ∀ k, lp < k → val (ps.drop k) = 0 := fun k hk => val_zero_of fun j => by
    rw [g_drop]; exact h3 _ (by omega)
  refine (forDown_ok (fun k (acc : List Char) => acc = if k ≤ lp then hexOf (val (ps.drop k)) else [])
    (Nat.zero_le _) ?_ ?_).mono fun acc hacc => ?_
  · rw [if_neg (by omega)]
  · intro i acc _ hi hacc
    rw [rd_g hi, ok_bind]
    split
    · rename_i hlt
      rw [Ok_ok, hacc, if_neg (by omega), if_neg (by omega)]
    · split
      · rename_i _ he
        subst he
        rw [Ok_ok, hacc, if_neg (by omega), if_pos le_rfl, val_drop ps i hi, hdz (i + 1) (by omega)]
        simp
      · rename_i hnl hne
        rw [Ok_ok, hacc, if_pos (by omega), if_pos (by omega), pad16_hexOf, val_drop ps i hi,
          Nat.add_comm (g ps i).toNat, Nat.mul_comm, show (2 : ℕ) ^ 64 = 16 ^ 16 by norm_num]
        rw [hexOf_append 16 _ _ ?_ ?_]
        · have hl : g ps lp ≠ 0 := h2.resolve_right (by omega)
          rw [Nat.pos_iff_ne_zero]
          intro hz
          apply hl
          apply BitVec.eq_of_getLsbD_eq
          intro b hb
          have e : bitAt (ps.drop (i + 1)) (64 * (lp - (i + 1)) + b) = false := by
            rw [← testBit_val, hz]; simp
          rw [bitAt_word _ _ _ hb, g_drop, show i + 1 + (lp - (i + 1)) = lp by omega] at e
          rw [e]; simp
        · have := (g ps i).isLt; norm_num at *; exact this
  · rw [hacc, if_pos (Nat.zero_le _), nval_toPoly]; simp

/-- value of a digit string, most significant digit first -/
def hexNum : List Char → ℕ → ℕ
  | [], acc => acc
  | c :: cs, acc => hexNum cs (acc * 16 + (hexVal c).getD 0)

theorem hexNum_append : ∀ (l m : List Char) (acc : ℕ), hexNum (l ++ m) acc = hexNum m (hexNum l acc)
  | [], _, _ => rfl
  | c :: l, m, acc => by simp [hexNum, hexNum_append l]

theorem hexVal_digitChar {n : ℕ} (h : n < 16) : hexVal (Nat.digitChar n) = some n := by
  interval_cases n <;> decide

theorem hexVal_lt {c : Char} {v : ℕ} (h : hexVal c = some v) : v < 16 := by
  unfold hexVal at h
  have hle : ∀ a b : Char, a ≤ b → a.toNat ≤ b.toNat := fun a b h => UInt32.le_iff_toNat_le.mp h
  have e1 : '0'.toNat = 48 := rfl
  have e2 : '9'.toNat = 57 := rfl
  have e3 : 'a'.toNat = 97 := rfl
  have e4 : 'f'.toNat = 102 := rfl
  have e5 : 'A'.toNat = 65 := rfl
  have e6 : 'F'.toNat = 70 := rfl
  split_ifs at h with h1 h2 h3
  · have := hle _ _ h1.2
    simp only [Option.some.injEq] at h
    omega
  · have := hle _ _ h2.2
    simp only [Option.some.injEq] at h
    omega
  · have := hle _ _ h3.2
    simp only [Option.some.injEq] at h
    omega

theorem hexNum_hexOf : ∀ n : ℕ, hexNum (hexOf n) 0 = n := by
  intro n
  induction n using Nat.strong_induction_on with
  | _ n ih =>
    by_cases h : n < 16
    · rw [hexOf_lt h]; simp [hexNum, hexVal_digitChar h]
    · rw [hexOf_ge (by omega), hexNum_append, ih (n / 16) (by omega)]
      simp [hexNum, hexVal_digitChar (show n % 16 < 16 by omega)]; omega

/-- every character is a hexadecimal digit -/
def AllHex (cs : List Char) : Prop := ∀ c ∈ cs, (hexVal c).isSome

theorem allHex_hexOf : ∀ n : ℕ, AllHex (hexOf n) := by
  intro n
  induction n using Nat.strong_induction_on with
  | _ n ih =>
    by_cases h : n < 16
    · rw [hexOf_lt h]; intro c hc; simp at hc; subst hc; rw [hexVal_digitChar h]; rfl
    · rw [hexOf_ge (by omega)]
      intro c hc
      rw [List.mem_append] at hc
      rcases hc with hc | hc
      · exact ih _ (by omega) c hc
      · simp at hc; subst hc; rw [hexVal_digitChar (by omega)]; rfl

theorem hexOf_ne_nil (n : ℕ) : hexOf n ≠ [] := by
  by_cases h : n < 16
  · rw [hexOf_lt h]; simp
  · rw [hexOf_ge (by omega)]; simp

theorem nval_mul_X_pow (p : (ZMod 2)[X]) (k : ℕ) : nval (p * X ^ k) = nval p * 2 ^ k := by
  apply Nat.eq_of_testBit_eq
  intro t
  rw [testBit_nval, coeff_mul_X_pow', Nat.mul_comm, Nat.testBit_two_pow_mul]
  by_cases h : k ≤ t
  · simp [h, testBit_nval]
  · simp [h]

theorem or_digit {ps : F2P} (hc : Canon ps) (hm : val ps % 16 = 0) {v : ℕ} (hv : v < 16) :
    val (ps.set 0 (g ps 0 ||| BitVec.ofNat 64 v)) = val ps + v ∧
      Canon (ps.set 0 (g ps 0 ||| BitVec.ofNat 64 v)) := by
  have hpos := hc.pos
  have hw : (g ps 0).toNat % 16 = 0 := by
    have := word_of_val ps 0
    simp only [Nat.mul_zero, pow_zero, Nat.div_one] at this
    omega
  have e : (g ps 0 ||| BitVec.ofNat 64 v).toNat = (g ps 0).toNat + v := by
    rw [BitVec.toNat_or, BitVec.toNat_ofNat, Nat.mod_eq_of_lt (by omega)]
    have := Nat.two_pow_add_eq_or_of_lt (i := 4) (b := v) (by omega) ((g ps 0).toNat / 16)
    rw [show 2 ^ 4 * ((g ps 0).toNat / 16) = (g ps 0).toNat by omega] at this
    exact this.symm
  constructor
  · have := val_set ps 0 (g ps 0 ||| BitVec.ofNat 64 v) hpos
    rw [e] at this
    simp only [Nat.mul_zero, pow_zero, Nat.one_mul] at this
    omega
  · by_cases hl : ps.length = 1
    · obtain ⟨w, rfl⟩ := List.length_eq_one_iff.mp hl
      exact canon_single _
    · apply canon_of_last (ne_nil_of_length (by simp; omega))
      simp only [List.length_set]
      rw [g_set hpos, if_neg (by omega)]
      apply hc.last
      intro hz
      rw [hc.of_zero hz] at hl; simp at hl

theorem readLoop_ok : ∀ (cs rest : List Char) (ps : F2P) (k : ℕ), Canon ps → AllHex cs →
    (∀ c, rest.head? = some c → hexVal c = none) →
    (readLoop (cs ++ rest) ps k).Ok (fun r => val r.1 = hexNum cs (val ps) ∧ Canon r.1 ∧
      r.2.1 = k + cs.length ∧ r.2.2 = rest)
  | [], [], ps, k, hc, _, _ => by simp [readLoop, hexNum, hc]
  | [], c :: rest, ps, k, hc, _, hr => by
    have := hr c rfl
    simp [readLoop, this, hexNum, hc]
  | c :: cs, rest, ps, k, hc, ha, hr => by
    obtain ⟨v, hv⟩ := Option.isSome_iff_exists.mp (ha c (by simp))
    rw [List.cons_append, readLoop, hv]
    refine (promote_4_ok hc).bind fun q ⟨h1, h2⟩ => ?_
    rw [rd_g h2.pos, ok_bind, wr_ok h2.pos, ok_bind]
    have hvq : val q = val ps * 16 := by
      rw [← nval_toPoly, h1, nval_mul_X_pow, nval_toPoly]; norm_num
    obtain ⟨e1, e2⟩ := or_digit h2 (by omega) (hexVal_lt hv)
    refine (readLoop_ok cs rest _ (k + 1) e2 (fun c hc => ha c (by simp [hc])) hr).mono
      fun r ⟨hr1, hr2, hr3, hr4⟩ => ⟨?_, hr2, by rw [hr3]; simp; omega, hr4⟩
    rw [hr1, e1, hvq, hexNum, hv]; rfl

theorem blank_not_hex {c : Char} (h : (hexVal c).isSome) : isBlank c = false := by
  by_contra hb
  simp only [isBlank, Bool.not_eq_false, Bool.or_eq_true, decide_eq_true_eq] at hb
  rcases hb with (rfl | rfl) | rfl <;> exact absurd h (by decide)

theorem dropWhile_blank : ∀ (ws : List Char) {cs : List Char}, (∀ c ∈ ws, isBlank c) →
    (∀ c, cs.head? = some c → isBlank c = false) → (ws ++ cs).dropWhile isBlank = cs
  | [], [], _, _ => rfl
  | [], c :: cs, _, h => by
    have := h c rfl
    simp [this]
  | w :: ws, cs, hw, h => by
    rw [List.cons_append, List.dropWhile_cons_of_pos (hw w (by simp))]
    exact dropWhile_blank ws (fun c hc => hw c (by simp [hc])) h

/-- Reading blanks, then a non-empty digit string, then anything not starting with a digit. -/
theorem read_ok {ws cs rest : List Char} (hw : ∀ c ∈ ws, isBlank c) (hne : cs ≠ []) (hc : AllHex cs)
    (hr : ∀ c, rest.head? = some c → hexVal c = none) :
    (read (ws ++ cs ++ rest)).Ok (fun r => nval (toPoly r.1) = hexNum cs 0 ∧ Canon r.1 ∧
      r.2.1 = false ∧ r.2.2 = rest) := by
  unfold read
  obtain ⟨c, cs', rfl⟩ := List.exists_cons_of_ne_nil hne
  have hd : (ws ++ (c :: cs') ++ rest).dropWhile isBlank = (c :: cs') ++ rest := by
    rw [List.append_assoc]
    apply dropWhile_blank ws hw
    intro d hd
    simp only [List.cons_append, List.head?_cons, Option.some.injEq] at hd
    subst hd
    exact blank_not_hex (hc c (by simp))
  rw [hd]
  refine (readLoop_ok (c :: cs') rest zero 0 canon_zero hc hr).bind fun r ⟨h1, h2, h3, h4⟩ => ?_
  rw [Ok_ok]
  refine ⟨?_, h2, ?_, h4⟩
  · dsimp only
    rw [nval_toPoly, h1]
    congr 1
  · dsimp only; rw [h3]; simp

theorem read_fail {ws rest : List Char} (hw : ∀ c ∈ ws, isBlank c)
    (hr : ∀ c, rest.head? = some c → hexVal c = none ∧ isBlank c = false) :
    (read (ws ++ rest)).Ok (fun r => r.2.1 = true) := by
  unfold read
  rw [dropWhile_blank ws hw (fun c hc => (hr c hc).2)]
  cases rest with
  | nil => simp
  | cons c rest =>
    have := (hr c rfl).1
    simp [readLoop, this]

/-- every polynomial has a canonical array -/
theorem exists_canon (p : (ZMod 2)[X]) : ∃ ps, Canon ps ∧ toPoly ps = p := by
  induction p using Polynomial.induction_on' with
  | add p q hp hq =>
    obtain ⟨a, ha, rfl⟩ := hp
    obtain ⟨b, hb, rfl⟩ := hq
    obtain ⟨r, _, h1, h2⟩ := add_ok (b := b) ha.ne_nil
    exact ⟨r, h2, h1⟩
  | monomial n c =>
    rcases one_or_zero c with rfl | rfl
    · exact ⟨zero, canon_zero, by simp⟩
    · obtain ⟨r, _, h1, h2⟩ := set_bit_new (n := n) canon_zero.ne_nil (toPoly_eq_zero.mp toPoly_zero n)
      exact ⟨r, h2 canon_zero, by rw [h1]; simp [← X_pow_eq_monomial]⟩

end F2P
end Spffl
