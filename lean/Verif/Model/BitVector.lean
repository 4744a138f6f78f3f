/-
Model of bit_vector_t (spffl/bits/bit_vector_t.h, bit_vector_t.cpp).

Bit `i` of a vector is bit `63 - i % 64` of word `i / 64`.  A vector object is its heap array `words` with a
flag for the null pointer, and the members `num_words`, `num_bits`.  A `bit_t` (spffl/bits/bit_t.h) is a
`Bool`: the only way to a residue other than 0 and 1 is `bit_t::operator=(int)`, which the modelled code uses
with 0 and 1 only.  Indices are natural numbers; a negative one is rejected like one that is too large.

`trim` computes a mask with `int` shifts whose counts are out of range whenever the length is not a multiple
of 64.  The functions that reach it take the mask computation as a parameter `tm`: `strictMask` is the code
read literally (undefined behaviour), any `fun n => ok (f n)` is a machine on which the shifts yield some
unspecified value.
-/
import Verif.Model.F2Poly

namespace Spffl
open Res

/-- what `trim` computes as mask for a vector of the given length -/
abbrev TrimMask := Nat → Res (BitVec 64)

/-- bit_vector_t.cpp:410-418, the mask expression, for `num_bits = nb` -/
def strictMask : TrimMask := fun nb => do
  let w ← chk ((nb + 63) / 64 * 64 : Nat)
  let dribble ← isub w nb
  let a ← ishl 1 (64 - dribble)
  let b ← isub a 1
  let c ← ishl b (if nb ≤ 64 then 64 - nb else 2 ^ 64 + 64 - nb)
  ok (BitVec.ofInt 64 c)

structure BV where
  null : Bool
  words : List (BitVec 64)
  num_words : Nat
  num_bits : Nat
deriving Repr, DecidableEq

namespace BV

/-- bit_vector_t.h:31-35. -/
def getBit (ws : List (BitVec 64)) (bi : Nat) : Res Bool := do
  let w ← rd ws (bi / 64)
  ok ((w >>> (63 - bi % 64)) &&& 1#64 ≠ 0#64)

/-- bit_vector_t.h:37-40. -/
def setBit (ws : List (BitVec 64)) (bi : Nat) : Res (List (BitVec 64)) := do
  let w ← rd ws (bi / 64)
  wr ws (bi / 64) (w ||| (1#64 <<< (63 - bi % 64)))

/-- bit_vector_t.h:42-45. -/
def clearBit (ws : List (BitVec 64)) (bi : Nat) : Res (List (BitVec 64)) := do
  let w ← rd ws (bi / 64)
  wr ws (bi / 64) (w &&& ~~~(1#64 <<< (63 - bi % 64)))

/-- bit_vector_t.h:47-50. -/
def toggleBit (ws : List (BitVec 64)) (bi : Nat) : Res (List (BitVec 64)) := do
  let w ← rd ws (bi / 64)
  wr ws (bi / 64) (w ^^^ (1#64 <<< (63 - bi % 64)))

/-- bit_vector_t.h:52-54. -/
def nwords (nb : Nat) : Nat := (nb + 63) / 64

/-- bit_vector_t.cpp:16-20. -/
def empty : BV := ⟨true, [], 0, 0⟩

/-- bit_vector_t.cpp:23-35. -/
def alloc (n : Int) : Res BV :=
  if n ≤ 0 then throw else ok ⟨false, List.replicate (nwords n.toNat) 0#64, nwords n.toNat, n.toNat⟩

/-- bit_vector_t.cpp:410-418. -/
def trim (tm : TrimMask) (v : BV) : Res BV :=
  if v.num_words * 64 = v.num_bits then ok v
  else do
    let mask ← tm v.num_bits
    let w ← rd v.words (v.num_words - 1)
    let ws ← wr v.words (v.num_words - 1) (w &&& mask)
    ok { v with words := ws }

/-- bit_vector_t.cpp:38-57 and 60-79: constructor from a scalar and a length. -/
def fill (tm : TrimMask) (b : Bool) (n : Int) : Res BV :=
  if n ≤ 0 then throw
  else do
    let w := if b then ~~~0#64 else 0#64
    let ws ← forUp 0 (nwords n.toNat) (List.replicate (nwords n.toNat) 0#64) fun i ws => wr ws i w
    trim tm ⟨false, ws, nwords n.toNat, n.toNat⟩

/-- copying `num_words` words of `that` over the front of `dst` (memcpy) -/
def copyWords (dst src : List (BitVec 64)) (n : Nat) : Res (List (BitVec 64)) :=
  forUp 0 n dst fun i d => store d i (rd src i)

/-- bit_vector_t.cpp:82-87. -/
def copy (that : BV) : Res BV := do
  let ws ← copyWords (List.replicate that.num_words 0#64) that.words that.num_words
  ok ⟨false, ws, that.num_words, that.num_bits⟩

/-- bit_vector_t.cpp:100-111.  `num_words` is overwritten first, so line 105 compares the new value with
itself. -/
def assign (this that : BV) : Res BV := do
  let num_words := that.num_words
  let buf := if this.null then List.replicate that.num_words 0#64
    else if num_words < that.num_words then List.replicate that.num_words 0#64
    else this.words
  let ws ← copyWords buf that.words that.num_words
  ok ⟨false, ws, num_words, that.num_bits⟩

/-- bit_vector_t.cpp:114-135. -/
def assignScalar (tm : TrimMask) (this : BV) (b : Bool) : Res BV :=
  if !this.null then do
    let w := if b then ~~~0#64 else 0#64
    let ws ← forUp 0 this.num_words this.words fun i ws => wr ws i w
    trim tm { this with words := ws }
  else trim tm ⟨false, [if b then 1#64 <<< 63 else 0#64], 1, 1⟩

/-- bit_vector_t.h:83-88. -/
def get (v : BV) (i : Nat) : Res Bool := if v.num_bits ≤ i then throw else getBit v.words i

/-- bit_vector_t.h:97-107 and 109-118. -/
def set (v : BV) (i : Nat) (b : Bool) : Res BV :=
  if v.num_bits ≤ i then throw
  else do
    let ws ← (if b then setBit v.words i else clearBit v.words i)
    ok { v with words := ws }

/-- bit_vector_t.cpp:230-235. -/
def toggle_element (v : BV) (i : Nat) : Res BV :=
  if v.num_bits ≤ i then throw
  else do
    let ws ← toggleBit v.words i
    ok { v with words := ws }

/-- bit_vector_t.cpp:238-245, from word `i`, `k` words left -/
def isZeroLoop (ws : List (BitVec 64)) : Nat → Nat → Res Bool
  | 0, _ => ok true
  | k + 1, i => do
    let w ← rd ws i
    if w ≠ 0#64 then ok false else isZeroLoop ws k (i + 1)

def is_zero (v : BV) : Res Bool := isZeroLoop v.words v.num_words 0

/-- bit_vector_t.cpp:396-404. -/
def check_equal_lengths (a b : BV) : Res Unit := if a.num_bits ≠ b.num_bits then throw else ok ()

/-- `rv.words[i] = a.words[i] op b.words[i]` into `dst` -/
def wordwise (op : BitVec 64 → BitVec 64 → BitVec 64) (a b dst : List (BitVec 64)) (n : Nat) : Res (List (BitVec 64)) :=
  forUp 0 n dst fun i d => store d i (do
    let x ← rd a i
    let y ← rd b i
    ok (op x y))

def binop (op : BitVec 64 → BitVec 64 → BitVec 64) (a b : BV) : Res BV := do
  check_equal_lengths a b
  let rv ← alloc a.num_bits
  let ws ← wordwise op a.words b.words rv.words a.num_words
  ok { rv with words := ws }

/-- bit_vector_t.cpp:248-255. -/
def add (a b : BV) : Res BV := binop (· ^^^ ·) a b
/-- bit_vector_t.cpp:258-265. -/
def sub (a b : BV) : Res BV := binop (· ^^^ ·) a b
/-- bit_vector_t.cpp:283-290: componentwise product. -/
def mul (a b : BV) : Res BV := binop (· &&& ·) a b

/-- bit_vector_t.cpp:268-274: multiplication by a scalar. -/
def smul (a : BV) (s : Bool) : Res BV := do
  let rv ← copy a
  if !s then do
    let ws ← forUp 0 rv.num_words rv.words fun i ws => wr ws i 0#64
    ok { rv with words := ws }
  else ok rv

/-- bit_vector_t.cpp:293-304. -/
def dot (a b : BV) : Res Bool := do
  if a.num_bits ≠ b.num_bits then check_equal_lengths a b
  let accum ← forUp 0 a.num_words 0#64 fun i acc => do
    let x ← rd a.words i
    let y ← rd b.words i
    ok (acc ^^^ (x &&& y))
  let n ← count_one_bits (F2P.bytes accum) 8
  ok (n % 2 = 1)

/-- bit_vector_t.cpp:307-318, in place; the lengths are not compared. -/
def xorAssign (a b : BV) : Res BV := do
  let ws ← forUp 0 a.num_words a.words fun i ws => store ws i (do
    let x ← rd ws i
    let y ← rd b.words i
    ok (x ^^^ y))
  ok { a with words := ws }

/-- bit_vector_t.cpp:436-443, in place -/
def accum_row (a b : BV) : Res BV := do
  if a.num_bits ≠ b.num_bits then check_equal_lengths a b
  xorAssign a b

/-- bit_vector_t.cpp:336-346, from word `i`, `k` words left -/
def eqLoop (a b : List (BitVec 64)) : Nat → Nat → Res Bool
  | 0, _ => ok true
  | k + 1, i => do
    let x ← rd a i
    let y ← rd b i
    if x ≠ y then ok false else eqLoop a b k (i + 1)

/-- bit_vector_t.cpp:336-346. -/
def eq (a b : BV) : Res Bool :=
  if a.num_bits ≠ b.num_bits then ok false else eqLoop a.words b.words (a.num_words - 1) 0

/-- bit_vector_t.cpp:354-365, from word `i`, `k` words left -/
def eqScalarLoop (a : List (BitVec 64)) (w : BitVec 64) : Nat → Nat → Res Bool
  | 0, _ => ok true
  | k + 1, i => do
    let x ← rd a i
    if x ≠ w then ok false else eqScalarLoop a w k (i + 1)

/-- bit_vector_t.cpp:354-365. -/
def eqScalar (a : BV) (b : Bool) : Res Bool :=
  eqScalarLoop a.words (if b then ~~~0#64 else 0#64) (a.num_words - 1) 0

/-- bit_vector_t.cpp:374-383, from word `i`, `k` words left -/
def leaderLoop (ws : List (BitVec 64)) : Nat → Nat → Res (Option Nat)
  | 0, _ => ok none
  | k + 1, i => do
    let w ← rd ws i
    if w ≠ 0#64 then do
      let b ← find_msb_64 w.toNat
      ok (some (63 - b + i * 64))
    else leaderLoop ws k (i + 1)

/-- bit_vector_t.cpp:374-383. -/
def find_leader_pos (v : BV) : Res (Option Nat) := leaderLoop v.words v.num_words 0

/-- bit_vector_t.cpp:386-393: exchanges the two heap arrays. -/
def ptrswap (a b : BV) : Res (BV × BV) := do
  if a.num_bits ≠ b.num_bits then check_equal_lengths a b
  ok ({ a with words := b.words }, { b with words := a.words })

end BV
end Spffl
