import Verif.Model.IntMod
import Verif.Model.IntRat

/-!
# Numbers as text

Reading and printing of `int`, `intmod_t` and `intrat_t` through standard streams:
`/repo/spffl/intmath/intmod_t.cpp:65-105`, `/repo/spffl/intmath/intrat_t.cpp:165-243`.

The stream library is modelled, not the project's: `IStream`, `IStream.peek`, `extractInt` and `showInt` state what the
C++ standard says of an `istringstream` in the "C" locale with default flags, of `peek`, of `operator>>(int &)` and of
`operator<<(int)`.
-/

namespace Spffl.Scan
open Res

/-- Unread characters and the two state bits in use. -/
structure IStream where
  cs : List Char
  eof : Bool
  fail : Bool
deriving DecidableEq, Repr

def IStream.ofChars (cs : List Char) : IStream := ⟨cs, false, false⟩

def IStream.good (s : IStream) : Bool := !s.eof && !s.fail

/-- `peek`: a stream that is not good gets its failure bit set and yields end of file; reaching the end sets the end
bit. -/
def IStream.peek (s : IStream) : Option Char × IStream :=
  if s.good then
    match s.cs with
    | c :: _ => (some c, s)
    | [] => (none, { s with eof := true })
  else (none, { s with fail := true })

/-- `isspace` in the "C" locale. -/
def isSpace (c : Char) : Bool :=
  c = ' ' || c = '\t' || c = '\n' || c = '\x0b' || c = '\x0c' || c = '\r'

def isDig (c : Char) : Bool := decide ('0'.toNat ≤ c.toNat ∧ c.toNat ≤ '9'.toNat)

def digVal (c : Char) : Nat := c.toNat - '0'.toNat

/-- The digits at the head, most significant first. -/
def takeDigits : List Char → Nat → Nat × List Char
  | [], acc => (acc, [])
  | c :: r, acc => if isDig c then takeDigits r (10 * acc + digVal c) else (acc, c :: r)

/-- The optional sign. -/
def takeSign : List Char → Bool × List Char
  | c :: r => if c = '-' then (true, r) else if c = '+' then (false, r) else (false, c :: r)
  | [] => (false, [])

/-- The value and the failure bit, given the sign, whether there was a digit, and the number. -/
def clampInt (neg : Bool) (found : Bool) (n : Nat) : Int × Bool :=
  if !found then (0, true)
  else
    let v : Int := if neg then -(n : Int) else n
    if v < INT_MIN then (INT_MIN, true) else if INT_MAX < v then (INT_MAX, true) else (v, false)

/-- Accumulating the characters of an integer once white space is skipped. -/
def getInt (cs : List Char) : Int × IStream :=
  let sg := takeSign cs
  let d := takeDigits sg.2 0
  let v := clampInt sg.1 (d.2.length < sg.2.length) d.1
  (v.1, ⟨d.2, d.2.isEmpty, v.2⟩)

/-- `is >> v` for an `int` that held `v0`. -/
def extractInt (v0 : Int) (s : IStream) : Int × IStream :=
  if s.good then
    match s.cs.dropWhile isSpace with
    | [] => (v0, ⟨[], true, true⟩)
    | cs => getInt cs
  else (v0, { s with fail := true })

/-- `os << v` for a natural number: its decimal digits. -/
def showNat (n : Nat) : List Char :=
  if n < 10 then [Char.ofNat (n + 48)] else showNat (n / 10) ++ [Char.ofNat (n % 10 + 48)]
decreasing_by omega

/-- `os << v`. -/
def showInt (n : Int) : List Char := if n < 0 then '-' :: showNat n.natAbs else showNat n.natAbs

/-- Reading one `int` from the start of a text, refused if the stream has failed: what
`/repo/spffl/cli_parser/cmd_line_ops.h:224-239` and `intmod_t::from_string`, `/repo/spffl/intmath/intmod_t.cpp:95-105`,
do. -/
def readInt (cs : List Char) : Res Int :=
  let r := extractInt 0 (.ofChars cs)
  if r.2.fail then throw else ok r.1

/-! ### intmod_t -/

/-- The blanks skipped by hand, `/repo/spffl/intmath/intmod_t.cpp:74-82`. -/
def blank (c : Char) : Bool := c = ' ' || c = '\t' || c = '\n'

/-- `operator<<`, `/repo/spffl/intmath/intmod_t.cpp:65-69`. -/
def showMod (a : IntMod) : Res (List Char) := do
  IntMod.check_modulus a
  ok (showInt a.residue)

/-- `operator>>` on a fresh stream, `/repo/spffl/intmath/intmod_t.cpp:72-92`.  The second test for end of file covers a
text of blanks only. -/
def extractMod (a : IntMod) (cs : List Char) : Res (IntMod × IStream) :=
  match cs.dropWhile blank with
  | [] => ok (a, ⟨[], true, true⟩)
  | cs => do
    IntMod.check_modulus a
    let r := extractInt a.residue (.ofChars cs)
    let k ← imod r.1 a.modulus
    ok (⟨k, a.modulus⟩, r.2)

/-- Reading a residue into an object that already has its modulus, refused if the stream has failed. -/
def readMod (p : Int) (cs : List Char) : Res IntMod := do
  let r ← extractMod ⟨0, p⟩ cs
  if r.2.fail then throw else ok r.1

/-- `intmod_t::from_string`, `/repo/spffl/intmath/intmod_t.cpp:95-105`; `none` is the return value `false`. -/
def modFromString (m : Int) (cs : List Char) : Res (Option IntMod) :=
  let r := extractInt 0 (.ofChars cs)
  if r.2.fail then ok none
  else do
    let a ← IntMod.mk' r.1 m
    ok (some a)

/-! ### intrat_t -/

/-- `operator<<`, `/repo/spffl/intmath/intrat_t.cpp:166-172`. -/
def showRat (a : IntRat) : List Char :=
  if a.denom ≠ 1 then showInt a.numer ++ '/' :: showInt a.denom else showInt a.numer

/-- The three loops that skip blanks, `/repo/spffl/intmath/intrat_t.cpp:214-222`. -/
def skipRat (cs : List Char) : List Char :=
  ((cs.dropWhile (· = ' ')).dropWhile (· = '\t')).dropWhile (· = '\n')

/-- After the numerator, `/repo/spffl/intmath/intrat_t.cpp:225-234`: the denominator and the stream.  `d0` is the
denominator the object held.  The last branch clears the state bits, also those of a failed numerator. -/
def ratDenom (d0 : Int) (s : IStream) : Int × IStream :=
  if s.eof then (1, s)
  else
    let p := s.peek
    if p.1 = some '/' then extractInt d0 { p.2 with cs := p.2.cs.tail }
    else (1, ⟨p.2.cs, false, false⟩)

/-- `operator>>(istringstream &)`, `/repo/spffl/intmath/intrat_t.cpp:208-237`, into `a`.  `peek` at the end of the text
while skipping sets the end bit, on which the reading of the numerator fails. -/
def extractRat (a : IntRat) (cs : List Char) : Res (IntRat × IStream) := do
  let r := extractInt a.numer (skipRat cs |> fun t => ⟨t, t.isEmpty, false⟩)
  let d := ratDenom a.denom r.2
  let q ← IntRat.simplify ⟨r.1, d.1⟩
  ok (q, d.2)

/-- As `ratDenom`, for `operator>>(istream &)`, `/repo/spffl/intmath/intrat_t.cpp:194-204`: the test for the end of the
text does not keep the second test from being made, and that one clears the state bits. -/
def ratDenomS (d0 : Int) (s : IStream) : Int × IStream :=
  let p := s.peek
  if p.1 = some '/' then extractInt d0 { p.2 with cs := p.2.cs.tail }
  else (1, ⟨p.2.cs, false, false⟩)

/-- `operator>>(istream &)`, `/repo/spffl/intmath/intrat_t.cpp:175-205`. -/
def extractRatS (a : IntRat) (cs : List Char) : Res (IntRat × IStream) := do
  let r := extractInt a.numer (skipRat cs |> fun t => ⟨t, t.isEmpty, false⟩)
  let d := ratDenomS a.denom r.2
  let q ← IntRat.simplify ⟨r.1, d.1⟩
  ok (q, d.2)

/-- Reading a rational, refused if the stream has failed. -/
def readRat (cs : List Char) : Res IntRat := do
  let r ← extractRat ⟨0, 1⟩ cs
  if r.2.fail then throw else ok r.1

end Spffl.Scan
