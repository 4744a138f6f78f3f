/-
Model of spffl/polynomials/f2_poly_t.{h,cpp}: polynomials over F2 stored as a `std::vector<uint64_t>`,
least significant word first.  Word shifts, masks and array indices are modelled as written; an index
outside the vector is `ub`.

Simplifications: degrees and word counts are natural numbers rather than 32-bit `int`s (the two agree
for polynomials of degree below 2^31 - 64); C++ `int` results that are always 0 or 1 are `Bool`.
-/
import Verif.Base.Res
import Verif.Base.Ops
import Verif.Model.Bits

namespace Spffl
open Res

/-- f2_poly_t.h:109: `std::vector<uint64_t> parts`. -/
abbrev F2P := List (BitVec 64)

namespace F2P

/-- f2_poly_t.cpp:27-31 default constructor, and :33-35 `f2_poly_t(int c0)`: `parts = {c0 & 1}`. -/
def ofInt (c : Int) : F2P := [BitVec.ofNat 64 (c % 2).toNat]
def zero : F2P := ofInt 0
def one : F2P := ofInt 1

/-- f2_poly_t.cpp:36-39 `f2_poly_t(int c1, int c0)`. -/
def ofInt2 (c1 c0 : Int) : F2P :=
  [(BitVec.ofNat 64 (c1 % 2).toNat <<< 1) ||| BitVec.ofNat 64 (c0 % 2).toNat]

/-- f2_poly_t.cpp:40-44 `f2_poly_t(int c2, int c1, int c0)`. -/
def ofInt3 (c2 c1 c0 : Int) : F2P :=
  [(BitVec.ofNat 64 (c2 % 2).toNat <<< 2) ||| (BitVec.ofNat 64 (c1 % 2).toNat <<< 1) |||
    BitVec.ofNat 64 (c0 % 2).toNat]

/-- f2_poly_t.cpp:61-65. -/
def from_base_rep (b : BitVec 64) : F2P := [b]

/-- f2_poly_t.cpp:787-789 `extend_parts`: `std::vector::resize`, zero-filling or truncating. -/
def resize (ps : F2P) (n : Nat) : F2P := ps.take n ++ List.replicate (n - ps.length) 0

/-- the loop of f2_poly_t.cpp:421-429, `i` counting the words not yet inspected -/
def degLoop (ps : F2P) : Nat → Res Nat
  | 0 => ok 0
  | i + 1 => do
    let w ← rd ps i
    if w ≠ 0 then do
      let b ← find_msb_64 w.toNat
      ok (b + i * 64)
    else degLoop ps i

/-- f2_poly_t.cpp:421-429 (degree of zero is 0). -/
def find_degree (ps : F2P) : Res Nat := degLoop ps ps.length

/-- f2_poly_t.cpp:790-796. -/
def trim_parts (ps : F2P) : Res F2P := do
  let d ← find_degree ps
  if d / 64 + 1 < ps.length then ok (resize ps (d / 64 + 1)) else ok ps

/-- one step of the xor loops of `operator+` -/
def xorStep (a b : F2P) (i : Nat) (out : F2P) : Res F2P := do
  let x ← rd a i
  let y ← rd b i
  wr out i (x ^^^ y)

/-- one step of the copy loops of `operator+` -/
def copyStep (a : F2P) (i : Nat) (out : F2P) : Res F2P := do
  let x ← rd a i
  wr out i x

/-- f2_poly_t.cpp:102-126 `operator+`; also `operator-` (:129-131). -/
def add (a b : F2P) : Res F2P :=
  if a.length < b.length then do
    let out ← forUp 0 a.length (List.replicate b.length 0) (xorStep a b)
    let out ← forUp a.length b.length out (copyStep b)
    trim_parts out
  else do
    let out ← forUp 0 b.length (List.replicate a.length 0) (xorStep a b)
    let out ← forUp b.length a.length out (copyStep a)
    trim_parts out

/-- f2_poly_t.cpp:129-131. -/
def sub (a b : F2P) : Res F2P := add a b
/-- f2_poly_t.cpp:134. -/
def neg (a : F2P) : Res F2P := ok a

/-- extension step shared by `_promote_1` and `_promote_4`: grow when any bit of `mask` is set in the
top word; reading the top word of an empty vector is undefined -/
def growIf (ps : F2P) (mask : BitVec 64) : Res F2P := do
  let t ← rd ps (ps.length - 1)
  if t &&& mask ≠ 0 then ok (resize ps (ps.length + 1)) else ok ps

/-- the shift loops of `_promote_1` / `_promote_4`: by `k` bits, high words first, then word 0 -/
def shiftUp (ps : F2P) (k : Nat) : Res F2P := do
  let ps ← forDown ps.length 1 ps fun i ps => do
    let x ← rd ps i
    let y ← rd ps (i - 1)
    wr ps i ((x <<< k) ||| (y >>> (64 - k)))
  let x ← rd ps 0
  wr ps 0 (x <<< k)

/-- f2_poly_t.cpp:700-708. -/
def promote_4 (ps : F2P) : Res F2P := do
  let ps ← growIf ps 0xf000000000000000#64
  shiftUp ps 4

/-- f2_poly_t.cpp:710-719. -/
def promote_1 (ps : F2P) : Res F2P := do
  let ps ← growIf ps 0x8000000000000000#64
  shiftUp ps 1

/-- f2_poly_t.cpp:721-732. -/
def demote_1 (ps : F2P) : Res F2P := do
  let ps ← forUp 0 (ps.length - 1) ps fun i ps => do
    let x ← rd ps i
    let y ← rd ps (i + 1)
    wr ps i ((x >>> 1) ||| (y <<< 63))
  let t ← rd ps (ps.length - 1)
  let ps ← wr ps (ps.length - 1) (t >>> 1)
  if t >>> 1 = 0 then trim_parts ps else ok ps

/-- inner part of `_promote_n` for a shift that is not a whole number of words, once the top word has
been dealt with: `d = di + 1`, `s = si + 1` (f2_poly_t.cpp:671-684). -/
def promoteTail (ps : F2P) (nb d s : Nat) : Res F2P :=
  if d ≤ s then ub else do
    let ps ← forDown s 0 ps fun si ps => do
      let x ← rd ps si
      let y ← rd ps (si + 1)
      wr ps (si + (d - s)) ((x >>> (64 - nb)) ||| (y <<< nb))
    let x ← rd ps 0
    let ps ← wr ps (d - s - 1) (x <<< nb)
    forDown (d - s - 1) 0 ps fun i ps => wr ps i 0

/-- f2_poly_t.cpp:643-686. -/
def promote_n (ps : F2P) (shamt : Nat) : Res F2P := do
  let odeg ← find_degree ps
  let onum := odeg / 64 + 1
  let nnum := (odeg + shamt) / 64 + 1
  let ps := resize ps nnum
  if shamt % 64 = 0 then do
    let ps ← forDown onum 0 ps fun i ps => do
      let x ← rd ps i
      wr ps (i + shamt / 64) x
    forDown (ps.length - onum) 0 ps fun i ps => wr ps i 0
  else if odeg % 64 ≥ 64 - shamt % 64 then do
    let x ← rd ps (onum - 1)
    let ps ← wr ps (ps.length - 1) (x >>> (64 - shamt % 64))
    promoteTail ps (shamt % 64) (ps.length - 1) (onum - 1)
  else
    promoteTail ps (shamt % 64) ps.length (onum - 1)

/-- f2_poly_t.cpp:735-743.  The comparison `which_part >= parts.size()` is unsigned, so a negative
position takes the first return rather than reaching `check_neg_pos`. -/
def bit_at (ps : F2P) (pos : Int) : Res Bool :=
  if pos < 0 ∨ (ps.length : Int) ≤ pos / 64 then ok false
  else do
    let w ← rd ps (pos / 64).toNat
    ok (((w >>> (pos % 64).toNat) &&& 1#64) ≠ 0#64)

/-- f2_poly_t.cpp:760-768.  For a negative position `extend_parts` runs first (with a size of zero, or a
huge one), then an exception leaves the call. -/
def set_bit (ps : F2P) (pos : Int) : Res F2P :=
  if pos < 0 then throw
  else do
    let ps := if (ps.length : Int) ≤ pos / 64 then resize ps ((pos / 64).toNat + 1) else ps
    let w ← rd ps (pos / 64).toNat
    wr ps (pos / 64).toNat (w ||| (1#64 <<< (pos % 64).toNat))

/-- f2_poly_t.cpp:769-786.  `1 << which_bit` is a 32-bit `int` shift, then converted (with sign) to
`uint64_t`. -/
def set_coeff (ps : F2P) (pos : Int) (b : Bool) : Res F2P :=
  if (pos < 0 ∨ (ps.length : Int) ≤ pos / 64) ∧ b = false then ok ps
  else if pos < 0 then throw
  else do
    let ps := if (ps.length : Int) ≤ pos / 64 then resize ps ((pos / 64).toNat + 1) else ps
    let w ← rd ps (pos / 64).toNat
    let m ← ishl 1 (pos % 64)
    if b then wr ps (pos / 64).toNat (w ||| BitVec.ofInt 64 m)
    else do
      let ps ← wr ps (pos / 64).toNat (w &&& BitVec.ofInt 64 (-m - 1))
      trim_parts ps

/-- one step of the accumulation loop `out.parts[j] ^= ashift.parts[j]` -/
def xorInto (src : F2P) (j : Nat) (out : F2P) : Res F2P := do
  let x ← rd out j
  let y ← rd src j
  wr out j (x ^^^ y)

/-- f2_poly_t.cpp:147-156, loop body: state is (out, ashift) -/
def mulStep (b : F2P) (i : Nat) (s : F2P × F2P) : Res (F2P × F2P) := do
  let bit ← bit_at b i
  if bit then do
    let out ← forUp 0 s.2.length s.1 (xorInto s.2)
    let sh ← promote_1 s.2
    ok (out, sh)
  else do
    let sh ← promote_1 s.2
    ok (s.1, sh)

/-- f2_poly_t.cpp:137-157. -/
def mul (a b : F2P) : Res F2P := do
  let adeg ← find_degree a
  let bdeg ← find_degree b
  let out : F2P := List.replicate ((adeg + bdeg + 64) / 64) 0
  let s ← forUp 0 (bdeg + 1) (out, a) (mulStep b)
  ok s.1

/-- f2_poly_t.cpp:160-166. -/
def mulInt (a : F2P) (bit : Int) : Res F2P := if bit % 2 = 1 then ok a else ok zero

/-- the test `divisor_l1_pos == 0 && that.parts[0] == 0` -/
def isZeroTest (d : Nat) (ps : F2P) : Res Bool :=
  if d = 0 then do let w ← rd ps 0; ok (w = 0) else ok false

/-- f2_poly_t.cpp:251-263, one iteration; state is (quot, rem, shift_divisor) -/
def divStep (dv : Nat) (qp : Nat) (s : F2P × F2P × F2P) : Res (F2P × F2P × F2P) := do
  let bit ← bit_at s.2.1 (qp + dv : Nat)
  if bit then do
    let rem ← sub s.2.1 s.2.2
    let quot ← set_bit s.1 qp
    let sd ← demote_1 s.2.2
    ok (quot, rem, sd)
  else do
    let sd ← demote_1 s.2.2
    ok (s.1, s.2.1, sd)

/-- f2_poly_t.cpp:222-264. -/
def quot_and_rem (a b : F2P) : Res (F2P × F2P) := do
  let dd ← find_degree a
  let dv ← find_degree b
  let bz ← isZeroTest dv b
  if bz then throw
  else do
    let az ← isZeroTest dd a
    if az then ok (zero, zero)
    else if dd < dv then ok (zero, a)
    else do
      let sd ← promote_n b (dd - dv)
      let s ← forDown (dd - dv + 1) 0 (zero, a, sd) (divStep dv)
      ok (s.1, s.2.1)

/-- f2_poly_t.cpp:168-172. -/
def div (a b : F2P) : Res F2P := do let s ← quot_and_rem a b; ok s.1
/-- f2_poly_t.cpp:174-178. -/
def mod (a b : F2P) : Res F2P := do let s ← quot_and_rem a b; ok s.2

/-- loop of f2_poly_t.cpp:431-438: are the `i` words at indices `1..i` all zero -/
def upperZero (ps : F2P) : Nat → Res Bool
  | 0 => ok true
  | i + 1 => do
    let w ← rd ps (i + 1)
    if w ≠ 0 then ok false else upperZero ps i

/-- f2_poly_t.cpp:431-438 `operator==(int)`. -/
def eqInt (ps : F2P) (v : Int) : Res Bool := do
  let u ← upperZero ps (ps.length - 1)
  if u then do
    let w ← rd ps 0
    ok (w = BitVec.ofNat 64 (v % 2).toNat)
  else ok false

/-- word comparison loop of f2_poly_t.cpp:467-476, `i` words left to compare (top first) -/
def cmpLoop (a b : F2P) : Nat → Res Int
  | 0 => ok 0
  | i + 1 => do
    let x ← rd a i
    let y ← rd b i
    if x < y then ok (-1) else if y < x then ok 1 else cmpLoop a b i

/-- f2_poly_t.cpp:458-478: the value of `direction`. -/
def cmp (a b : F2P) : Res Int := do
  let adeg ← find_degree a
  let bdeg ← find_degree b
  if adeg < bdeg then ok (-1)
  else if bdeg < adeg then ok 1
  else cmpLoop a b (adeg / 64 + 1)

/-- f2_poly_t.cpp:440-457 and the switch at :479-503. -/
def eq (a b : F2P) : Res Bool := do let d ← cmp a b; ok (d == 0)
def ne (a b : F2P) : Res Bool := do let d ← cmp a b; ok (d != 0)
def lt (a b : F2P) : Res Bool := do let d ← cmp a b; ok (decide (d < 0))
def gt (a b : F2P) : Res Bool := do let d ← cmp a b; ok (decide (0 < d))
def le (a b : F2P) : Res Bool := do let d ← cmp a b; ok (decide (d ≤ 0))
def ge (a b : F2P) : Res Bool := do let d ← cmp a b; ok (decide (0 ≤ d))

/-- f2_poly_t.cpp:275-285, with fuel -/
def gcdLoop : Nat → F2P → F2P → Res F2P
  | 0, _, _ => timeout
  | n + 1, c, d => do
    let s ← quot_and_rem c d
    let z ← eqInt s.2 0
    if z then ok d else gcdLoop n d s.2

/-- f2_poly_t.cpp:266-286.  `fuel` bounds the loop; the proofs show the choice below always suffices. -/
def gcd (a b : F2P) : Res F2P := do
  let az ← eqInt a 0
  if az then ok b
  else do
    let bz ← eqInt b 0
    if bz then ok a else gcdLoop (64 * b.length + 1) a b

/-- loop state of `ext_gcd` -/
structure ExtState where
  c : F2P
  d : F2P
  mprime : F2P
  rm : F2P
  nprime : F2P
  rn : F2P

/-- f2_poly_t.cpp:311-324, with fuel; result is (gcd, rm, rn) -/
def extLoop : Nat → ExtState → Res (F2P × F2P × F2P)
  | 0, _ => timeout
  | n + 1, s => do
    let qr ← quot_and_rem s.c s.d
    let z ← eqInt qr.2 0
    if z then ok (s.d, s.rm, s.rn)
    else do
      let qm ← mul qr.1 s.rm
      let rm ← sub s.mprime qm
      let qn ← mul qr.1 s.rn
      let rn ← sub s.nprime qn
      extLoop n ⟨s.d, qr.2, s.rm, rm, s.rn, rn⟩

/-- f2_poly_t.cpp:289-326; result is (gcd, rm, rn). -/
def ext_gcd (a b : F2P) : Res (F2P × F2P × F2P) := do
  let az ← eqInt a 0
  if az then ok (b, zero, one)
  else do
    let bz ← eqInt b 0
    if bz then ok (a, one, zero)
    else extLoop (64 * b.length + 1) ⟨a, b, one, zero, zero, one⟩

/-- f2_poly_t.cpp:328-366. -/
def exp (a : F2P) (e : Int) : Res F2P := do
  let z ← eq a zero
  if z then
    if e = 0 then throw else if e < 0 then throw else ok zero
  else do
    let d ← find_degree a
    if d = 0 then ok one
    else if e < 0 then throw
    else sqMulLoop mul (e.toNat + 1) one a e.toNat

/-- f2_poly_t.cpp:368-376. -/
def deriv (a : F2P) : Res F2P := do
  let ps ← demote_1 a
  let ps ← forUp 0 ps.length ps fun i ps => do
    let x ← rd ps i
    wr ps i (x &&& 0x5555555555555555#64)
  trim_parts ps

/-- f2_poly_t.cpp:386-394, `n` further values of `di`; `si = 2*di` -/
def sqrtLoop (a : F2P) : Nat → Nat → F2P → Res (Option F2P)
  | 0, _, root => ok (some root)
  | n + 1, di, root => do
    let b0 ← bit_at a (2 * di : Nat)
    let b1 ← bit_at a (2 * di + 1 : Nat)
    if b0 then do
      let root ← set_bit root di
      if b1 then ok none else sqrtLoop a n (di + 1) root
    else if b1 then ok none else sqrtLoop a n (di + 1) root

/-- f2_poly_t.cpp:382-396; `none` is the `false` return. -/
def square_root (a : F2P) : Res (Option F2P) := do
  let d ← find_degree a
  sqrtLoop a (d / 2 + 1) 0 zero

/-- little-endian bytes of a word -/
def bytes (w : BitVec 64) : List Nat := (List.range 8).map fun k => w.toNat / 2 ^ (8 * k) % 256

/-- f2_poly_t.cpp:410-419. -/
def zcount_one_bits (ps : F2P) : Res Int := do
  let n ← forUp 0 ps.length (0 : Int) fun i n => do
    let w ← rd ps i
    let c ← count_one_bits (bytes w) 8
    iadd n c
  ok (n % 2)

/-- f2_poly_t.cpp:402-408. -/
def eval (ps : F2P) (c : Int) : Res Int :=
  if c % 2 = 1 then zcount_one_bits ps
  else do
    let w ← rd ps 0
    ok ((w &&& 1#64).toNat : Int)

/-- f2_poly_t.cpp:508-515, `n` words left, next index `i` -/
def incLoop : Nat → Nat → F2P → Res (F2P × Bool)
  | 0, _, ps => ok (ps, false)
  | n + 1, i, ps => do
    let w ← rd ps i
    if w ≠ BitVec.allOnes 64 then do
      let ps ← wr ps i (w + 1)
      ok (ps, true)
    else do
      let ps ← wr ps i 0
      incLoop n (i + 1) ps

/-- f2_poly_t.cpp:506-517. -/
def increment (ps : F2P) : Res F2P := do
  let s ← incLoop ps.length 0 ps
  if s.2 then ok s.1 else set_bit s.1 (s.1.length * 64 : Nat)

/-! ### Text -/

/-- unpadded lower-case hexadecimal, as `os << std::hex << n` writes it -/
def hexOf (n : Nat) : List Char :=
  if h : n < 16 then [Nat.digitChar n] else hexOf (n / 16) ++ [Nat.digitChar (n % 16)]
termination_by n
decreasing_by omega

/-- `std::setw(16) << std::setfill('0')` -/
def pad16 (l : List Char) : List Char := List.replicate (16 - l.length) '0' ++ l

/-- leader search of f2_poly_t.cpp:528-533, `i` words left -/
def leaderPos (ps : F2P) : Nat → Res Nat
  | 0 => ok 0
  | i + 1 => do
    let w ← rd ps i
    if w ≠ 0 ∨ i = 0 then ok i else leaderPos ps i

/-- f2_poly_t.cpp:519-547: the text written. -/
def print (ps : F2P) : Res (List Char) :=
  if ps.length = 0 then throw
  else do
    let lp ← leaderPos ps ps.length
    forDown ps.length 0 [] fun i acc => do
      let w ← rd ps i
      if lp < i then ok acc
      else if i = lp then ok (acc ++ hexOf w.toNat)
      else ok (acc ++ pad16 (hexOf w.toNat))

def isBlank (c : Char) : Bool := c = ' ' || c = '\t' || c = '\n'

/-- `isdigit` / `isxdigit` with the arithmetic of f2_poly_t.cpp:585-591 -/
def hexVal (c : Char) : Option Nat :=
  if '0' ≤ c ∧ c ≤ '9' then some (c.toNat - '0'.toNat)
  else if 'a' ≤ c ∧ c ≤ 'f' then some (c.toNat - 'a'.toNat + 10)
  else if 'A' ≤ c ∧ c ≤ 'F' then some (c.toNat - 'A'.toNat + 10)
  else none

/-- digit loop of f2_poly_t.cpp:580-595: (value, number of digits, unread characters) -/
def readLoop : List Char → F2P → Nat → Res (F2P × Nat × List Char)
  | [], ps, k => ok (ps, k, [])
  | c :: cs, ps, k =>
    match hexVal c with
    | none => ok (ps, k, c :: cs)
    | some v => do
      let ps ← promote_4 ps
      let w ← rd ps 0
      let ps ← wr ps 0 (w ||| BitVec.ofNat 64 v)
      readLoop cs ps (k + 1)

/-- f2_poly_t.cpp:562-600 and :602-641: (value, fail bit, unread characters). -/
def read (cs : List Char) : Res (F2P × Bool × List Char) :=
  match cs.dropWhile isBlank with
  | [] => ok (zero, true, [])
  | cs' => do
    let s ← readLoop cs' zero 0
    ok (s.1, s.2.1 == 0, s.2.2)

/-- f2_poly_t.cpp:748-757 `dprint`. -/
def dprint (ps : F2P) (reqdeg : Nat) : Res (List Char) := do
  let d ← find_degree ps
  let t ← print ps
  ok (List.replicate ((reqdeg + 4) / 4 - (d + 4) / 4) '0' ++ t)

end F2P
end Spffl
