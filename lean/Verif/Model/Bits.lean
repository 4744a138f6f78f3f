/-
Model of spffl/intmath/log2.cpp and spffl/bits/count_bits.cpp.  Unsigned words are `Nat`s below the
word size; `>>` is division, masking with `2^k - 1` is `%`.
-/
import Verif.Base.Res

namespace Spffl
open Res

/-- log2.cpp:11-16. -/
def u4_table : List Nat := [0, 0, 1, 1, 2, 2, 2, 2, 3, 3, 3, 3, 3, 3, 3, 3]
/-- log2.cpp:18-23. -/
def l4_table : List Nat := [0, 0, 1, 0, 2, 0, 1, 0, 3, 0, 1, 0, 2, 0, 1, 0]

/-- One halving step of `find_msb_*`: `upper = n >> k; if (upper) { rv += k; n = upper } else n &= mask`
(log2.cpp:35-41, 43-49, 76-82, 84-90, 92-98).  Returns `(n, rv)`. -/
def msbStep (k : Nat) (s : Nat × Nat) : Nat × Nat :=
  let upper := s.1 / 2 ^ k
  if upper ≠ 0 then (upper, s.2 + k) else (s.1 % 2 ^ k, s.2)

/-- log2.cpp:26-53. -/
def find_msb_16 (n : Nat) : Res Nat := do
  let s := msbStep 4 (msbStep 8 (n, 0))
  let t ← rd u4_table s.1
  ok (s.2 + t)

/-- log2.cpp:56-102. -/
def find_msb_32 (n : Nat) : Res Nat := do
  let s := msbStep 4 (msbStep 8 (msbStep 16 (n, 0)))
  let t ← rd u4_table s.1
  ok (s.2 + t)

/-- log2.cpp:105-116. -/
def find_msb_64 (n : Nat) : Res Nat := do
  let upper := n / 2 ^ 32 % 2 ^ 32
  if upper ≠ 0 then do let r ← find_msb_32 upper; ok (r + 32)
  else find_msb_32 (n % 2 ^ 32)

/-- One step of `find_lsb_*` (log2.cpp:123-145). -/
def lsbStep (k : Nat) (s : Nat × Nat) : Nat × Nat :=
  let lower := s.1 % 2 ^ k
  if lower ≠ 0 then (lower, s.2) else (s.1 / 2 ^ k, s.2 + k)

/-- log2.cpp:119-149. -/
def find_lsb_32 (n : Nat) : Res Nat := do
  let s := lsbStep 4 (lsbStep 8 (lsbStep 16 (n, 0)))
  let t ← rd l4_table s.1
  ok (s.2 + t)

/-- log2.cpp:152-159. -/
def find_lsb_64 (n : Nat) : Res Nat := do
  let lower := n % 2 ^ 32
  if lower ≠ 0 then find_lsb_32 lower
  else do let r ← find_lsb_32 (n / 2 ^ 32 % 2 ^ 32); ok (r + 32)

/-- log2.cpp:162-165. -/
def calc_log2_unsigned_floor (n : Nat) : Res Nat := find_msb_32 n

/-- log2.cpp:167-175; the shift count `l` is at most 31. -/
def calc_log2_unsigned_ceil (n : Nat) : Res Nat := do
  let l ← find_msb_32 n
  if l ≥ 32 then ub
  else if 2 ^ l % 2 ^ 32 = n then ok l else ok (l + 1)

/-- log2.cpp:178-181. -/
def calc_log2_unsigned_ll_floor (n : Nat) : Res Nat := find_msb_64 n

/-- log2.cpp:183-191. -/
def calc_log2_unsigned_ll_ceil (n : Nat) : Res Nat := do
  let l ← find_msb_64 n
  if l ≥ 64 then ub
  else if 2 ^ l % 2 ^ 64 = n then ok l else ok (l + 1)

/-- count_bits.cpp:11-268. -/
def byte_num_one_bits : List Nat := [
  0, 1, 1, 2, 1, 2, 2, 3, 1, 2, 2, 3, 2, 3, 3, 4,
  1, 2, 2, 3, 2, 3, 3, 4, 2, 3, 3, 4, 3, 4, 4, 5,
  1, 2, 2, 3, 2, 3, 3, 4, 2, 3, 3, 4, 3, 4, 4, 5,
  2, 3, 3, 4, 3, 4, 4, 5, 3, 4, 4, 5, 4, 5, 5, 6,
  1, 2, 2, 3, 2, 3, 3, 4, 2, 3, 3, 4, 3, 4, 4, 5,
  2, 3, 3, 4, 3, 4, 4, 5, 3, 4, 4, 5, 4, 5, 5, 6,
  2, 3, 3, 4, 3, 4, 4, 5, 3, 4, 4, 5, 4, 5, 5, 6,
  3, 4, 4, 5, 4, 5, 5, 6, 4, 5, 5, 6, 5, 6, 6, 7,
  1, 2, 2, 3, 2, 3, 3, 4, 2, 3, 3, 4, 3, 4, 4, 5,
  2, 3, 3, 4, 3, 4, 4, 5, 3, 4, 4, 5, 4, 5, 5, 6,
  2, 3, 3, 4, 3, 4, 4, 5, 3, 4, 4, 5, 4, 5, 5, 6,
  3, 4, 4, 5, 4, 5, 5, 6, 4, 5, 5, 6, 5, 6, 6, 7,
  2, 3, 3, 4, 3, 4, 4, 5, 3, 4, 4, 5, 4, 5, 5, 6,
  3, 4, 4, 5, 4, 5, 5, 6, 4, 5, 5, 6, 5, 6, 6, 7,
  3, 4, 4, 5, 4, 5, 5, 6, 4, 5, 5, 6, 5, 6, 6, 7,
  4, 5, 5, 6, 5, 6, 6, 7, 5, 6, 6, 7, 6, 7, 7, 8]

/-- count_bits.cpp:271-278: sum of table entries over `nbytes` bytes at `p`; reading past the buffer is
undefined, and so is overflow of the `int` accumulator. -/
def count_one_bits (p : List Nat) (nbytes : Nat) : Res Int :=
  forUp 0 nbytes (0 : Int) fun i rv => do
    let b ← rd p i
    let c ← rd byte_num_one_bits b
    iadd rv c

end Spffl
