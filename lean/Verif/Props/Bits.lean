/- Property theorems C09 (bit positions, base-2 logarithms) and C73 (population count). -/
import Verif.Proof.Bits

namespace Spffl
open Res

/-- C09: most significant bit, 16-bit words: `2^r ≤ n < 2^(r+1)`. -/
theorem C09_find_msb_16 (n : Nat) (h0 : n ≠ 0) (hn : n < 2 ^ 16) :
    ∃ r, find_msb_16 n = ok r ∧ 2 ^ r ≤ n ∧ n < 2 ^ (r + 1) :=
  ⟨_, find_msb_16_ok h0 hn, Nat.pow_log_le_self 2 h0, Nat.lt_pow_succ_log_self (by norm_num) n⟩

/-- C09: most significant bit, 32-bit words. -/
theorem C09_find_msb_32 (n : Nat) (h0 : n ≠ 0) (hn : n < 2 ^ 32) :
    ∃ r, find_msb_32 n = ok r ∧ 2 ^ r ≤ n ∧ n < 2 ^ (r + 1) :=
  ⟨_, find_msb_32_ok h0 hn, Nat.pow_log_le_self 2 h0, Nat.lt_pow_succ_log_self (by norm_num) n⟩

/-- C09: most significant bit, 64-bit words. -/
theorem C09_find_msb_64 (n : Nat) (h0 : n ≠ 0) (hn : n < 2 ^ 64) :
    ∃ r, find_msb_64 n = ok r ∧ 2 ^ r ≤ n ∧ n < 2 ^ (r + 1) :=
  ⟨_, find_msb_64_ok h0 hn, Nat.pow_log_le_self 2 h0, Nat.lt_pow_succ_log_self (by norm_num) n⟩

/-- C09: least significant bit, 32-bit words: bit `r` is set and no lower bit is. -/
theorem C09_find_lsb_32 (n : Nat) (h0 : n ≠ 0) (hn : n < 2 ^ 32) :
    ∃ r, find_lsb_32 n = ok r ∧ n.testBit r = true ∧ ∀ i < r, n.testBit i = false :=
  find_lsb_32_ok h0 hn

/-- C09: least significant bit, 64-bit words. -/
theorem C09_find_lsb_64 (n : Nat) (h0 : n ≠ 0) (hn : n < 2 ^ 64) :
    ∃ r, find_lsb_64 n = ok r ∧ n.testBit r = true ∧ ∀ i < r, n.testBit i = false :=
  find_lsb_64_ok h0 hn

/-- C09: floor and ceiling logarithms of 32-bit words. -/
theorem C09_log2_32 (n : Nat) (h0 : n ≠ 0) (hn : n < 2 ^ 32) :
    (∃ r, calc_log2_unsigned_floor n = ok r ∧ 2 ^ r ≤ n ∧ n < 2 ^ (r + 1)) ∧
    (∃ r, calc_log2_unsigned_ceil n = ok r ∧ n ≤ 2 ^ r ∧ ∀ s, n ≤ 2 ^ s → r ≤ s) := by
  have hlt : Nat.log 2 n < 32 := Nat.log_lt_of_lt_pow h0 hn
  have h1 := Nat.pow_log_le_self 2 h0
  have h2 := Nat.lt_pow_succ_log_self (b := 2) (by norm_num) n
  refine ⟨C09_find_msb_32 n h0 hn, ?_⟩
  unfold calc_log2_unsigned_ceil
  rw [find_msb_32_ok h0 hn, ok_bind, if_neg (by omega),
    Nat.mod_eq_of_lt (Nat.pow_lt_pow_right (by norm_num) hlt)]
  split
  · rename_i he
    refine ⟨_, rfl, he.ge, fun s hs => ?_⟩
    rw [← Nat.pow_le_pow_iff_right (a := 2) (by norm_num)]; omega
  · rename_i he
    refine ⟨_, rfl, h2.le, fun s hs => ?_⟩
    have : Nat.log 2 n < s := by
      rw [← Nat.pow_lt_pow_iff_right (a := 2) (by norm_num)]; omega
    omega

/-- C09: floor and ceiling logarithms of 64-bit words. -/
theorem C09_log2_64 (n : Nat) (h0 : n ≠ 0) (hn : n < 2 ^ 64) :
    (∃ r, calc_log2_unsigned_ll_floor n = ok r ∧ 2 ^ r ≤ n ∧ n < 2 ^ (r + 1)) ∧
    (∃ r, calc_log2_unsigned_ll_ceil n = ok r ∧ n ≤ 2 ^ r ∧ ∀ s, n ≤ 2 ^ s → r ≤ s) := by
  have hlt : Nat.log 2 n < 64 := Nat.log_lt_of_lt_pow h0 hn
  have h1 := Nat.pow_log_le_self 2 h0
  have h2 := Nat.lt_pow_succ_log_self (b := 2) (by norm_num) n
  refine ⟨C09_find_msb_64 n h0 hn, ?_⟩
  unfold calc_log2_unsigned_ll_ceil
  rw [find_msb_64_ok h0 hn, ok_bind, if_neg (by omega),
    Nat.mod_eq_of_lt (Nat.pow_lt_pow_right (by norm_num) hlt)]
  split
  · rename_i he
    refine ⟨_, rfl, he.ge, fun s hs => ?_⟩
    rw [← Nat.pow_le_pow_iff_right (a := 2) (by norm_num)]; omega
  · rename_i he
    refine ⟨_, rfl, h2.le, fun s hs => ?_⟩
    have : Nat.log 2 n < s := by
      rw [← Nat.pow_lt_pow_iff_right (a := 2) (by norm_num)]; omega
    omega

example : find_msb_64 0x8000000000000001 = ok 63 ∧ find_lsb_64 0xff00000000 = ok 32 := by
  decide +kernel

/-- C73: the number of set bits of the first `nbytes` bytes of any buffer (below 2^28 bytes). -/
theorem C73_count_one_bits (p : List Nat) (nbytes : Nat) (hp : ∀ b ∈ p, b < 256)
    (hlen : nbytes ≤ p.length) (hsz : nbytes * 8 ≤ 2147483647) :
    count_one_bits p nbytes =
      ok (((p.take nbytes).map fun b => ((List.range 8).filter fun i => b.testBit i).length).sum : Int)
    := count_one_bits_ok p nbytes hp hlen hsz

example : count_one_bits [0xff, 0x01, 0xa5] 3 = ok 13 := by decide +kernel

end Spffl
