/-
Model of spffl/intmath: int_gcd.cpp, int_power.cpp, int_sqrt.cpp, int_totient.cpp, log10.cpp.
`int` is `Int` with range checks, `unsigned` is `Nat` reduced mod 2^32.
-/
import Verif.Base.Res

namespace Spffl
open Res

/-- int_gcd.cpp:29-36, the `while (1)` loop.  Fuel bounds the number of iterations. -/
def gcdLoop : Nat → Int → Int → Res Int
  | 0, _, _ => timeout
  | k + 1, a, b => do
    let r ← imod a b
    if r = 0 then ok b else gcdLoop k b r

/-- int_gcd.cpp:22-27: `if (a < 0) a = -a;`. -/
def absInt (a : Int) : Res Int := if a < 0 then ineg a else ok a

/-- int_gcd.cpp:12-39.  The fuel `|b| + 1` is shown to suffice. -/
def int_gcd (a b : Int) : Res Int :=
  if a = 0 then ok b
  else if b = 0 then ok a
  else do
    let a ← absInt a
    let b ← absInt b
    gcdLoop (b.natAbs + 1) a b

/-- The eight locals of `int_ext_gcd` that survive an iteration. -/
structure ExtSt where
  mprime : Int
  nprime : Int
  m : Int
  n : Int
  c : Int
  d : Int
deriving DecidableEq, Repr

/-- int_gcd.cpp:54-79, the loop of `int_ext_gcd`.  Returns `(d, m, n)`. -/
def extLoop : Nat → ExtSt → Res (Int × Int × Int)
  | 0, _ => timeout
  | k + 1, s => do
    let q ← idiv s.c s.d
    let r ← imod s.c s.d
    if r = 0 then ok (s.d, s.m, s.n)
    else do
      let qm ← imul q s.m
      let m' ← isub s.mprime qm
      let qn ← imul q s.n
      let n' ← isub s.nprime qn
      extLoop k { c := s.d, d := r, mprime := s.m, m := m', nprime := s.n, n := n' }

/-- int_gcd.cpp:42-81.  Returns `(d, m, n)`; the C++ output references `m`, `n` become results. -/
def int_ext_gcd (a b : Int) : Res (Int × Int × Int) :=
  extLoop (b.natAbs + 1) { mprime := 1, n := 1, m := 0, nprime := 0, c := a, d := b }

/-- int_gcd.cpp:84. -/
def int_lcm (a b : Int) : Res Int := do
  let ab ← imul a b
  let g ← int_gcd a b
  idiv ab g

/-- Conversion of an `int` to `unsigned`. -/
def toU32 (e : Int) : Nat := (e % 4294967296).toNat

/-- int_power.cpp:16-18: `if (e & 1) rv = rv * b2;`. -/
def powStep (rv b2 : Int) (e : Nat) : Res Int := if e % 2 = 1 then imul rv b2 else ok rv

/-- int_power.cpp:15-21 (loop of `int_power`); `e` is the 32-bit pattern of the exponent. -/
def powLoop : Nat → Int → Int → Nat → Res Int
  | 0, rv, _, e => if e = 0 then ok rv else timeout
  | k + 1, rv, b2, e =>
    if e = 0 then ok rv
    else do
      let rv ← powStep rv b2 e
      let b2 ← imul b2 b2
      powLoop k rv b2 (e / 2)

/-- int_power.cpp:11-23.  The exponent is shifted right as an unsigned number, so 32 iterations
exhaust it. -/
def int_power (b e : Int) : Res Int := powLoop 32 1 b (toU32 e)

/-- Reduction of an unsigned 32-bit result. -/
def u32 (x : Nat) : Nat := x % 4294967296

/-- int_sqrt.cpp:30: `for (nsv = n, half_log = 0; nsv != 0; nsv >>= 2, half_log++)`. -/
def halfLogLoop : Nat → Nat → Nat → Nat
  | 0, _, hl => hl
  | k + 1, nsv, hl => if nsv = 0 then hl else halfLogLoop k (nsv / 4) (hl + 1)

/-- int_sqrt.cpp:37-54, the binary search; `want_ceil` selects the end returned. -/
def sqrtLoop (n : Nat) (want_ceil : Bool) : Nat → Nat → Nat → Nat → Res Nat
  | 0, _, _, _ => timeout
  | k + 1, lower, upper, diff =>
    if diff = 0 then ok (if want_ceil then upper else lower)
    else
      let half := diff / 2
      let middle := u32 (lower + half)
      let sq := u32 (middle * middle)
      if sq = n then ok middle
      else if sq < n then sqrtLoop n want_ceil k (u32 (lower + half)) upper half
      else sqrtLoop n want_ceil k lower (u32 (upper + 4294967296 - half)) half

/-- int_sqrt.cpp:14-55 (`static int int_sqrt`).  `1 << half_log` is in range since `half_log ≤ 15`.
The fuel 33 for the search is one more than the number of bits of `diff`. -/
def int_sqrt (nsigned : Int) (want_ceil : Bool) : Res Int :=
  if nsigned < 0 then throw
  else if nsigned = 0 then ok 0
  else
    let n := toU32 nsigned
    let half_log := halfLogLoop 17 n 0 - 1
    let lower := u32 (2 ^ half_log)
    let upper := u32 (lower * 2)
    let diff := upper - lower
    (fun r : Nat => (r : Int)) <$> sqrtLoop n want_ceil 33 lower upper diff

/-- int_sqrt.cpp:57. -/
def int_sqrt_ceil (n : Int) : Res Int := int_sqrt n true
/-- int_sqrt.cpp:59. -/
def int_sqrt_floor (n : Int) : Res Int := int_sqrt n false

/-- int_totient.cpp:11-23. -/
def int_totient (n : Int) : Res Int :=
  forUp 1 n.toNat 0 fun i phi => do
    let g ← int_gcd n i
    if g = 1 then iadd phi 1 else ok phi

/-- log10.cpp:9-12, the loop. -/
def log10Loop : Nat → Nat → Nat → Nat
  | 0, _, rv => rv
  | k + 1, n, rv => if n > 0 then log10Loop k (n / 10) (rv + 1) else rv

/-- log10.cpp:5-14, `calc_log10_unsigned_floor`; ten iterations exhaust a 32-bit value. -/
def calc_log10_unsigned_floor (n : Nat) : Nat := log10Loop 10 (n / 10) 0

end Spffl
