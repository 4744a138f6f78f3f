import Verif.Model.BitMatrix
import Verif.Model.VecText

/-!
# Bits, bit vectors and bit matrices as text

`operator<<`, `operator>>` and `from_string` of `bit_t`, `bit_vector_t` and `bit_matrix_t`: `/repo/spffl/bits/bit_t.cpp:13-56`,
`/repo/spffl/bits/bit_vector_t.cpp:138-227`, `/repo/spffl/bits/bit_matrix_t.cpp:189-290`.

Texts are lists of ASCII characters other than NUL, streams are without state bits set at the start.  `u` is what is found in
words that were allocated and not written to yet.
-/

namespace Spffl.BText
open Res Scan

/-! ### Bits -/

/-- Accumulating the characters of an unsigned integer of 32 bits: a number after `-` is negated modulo `2 ^ 32`, as the
standard library does it; its size decides on the failure. -/
def getUInt (cs : List Char) : Nat × IStream :=
  let sg := takeSign cs
  let d := takeDigits sg.2 0
  if ¬ d.2.length < sg.2.length then (0, ⟨d.2, d.2.isEmpty, true⟩)
  else if 2 ^ 32 ≤ d.1 then (2 ^ 32 - 1, ⟨d.2, d.2.isEmpty, true⟩)
  else (if sg.1 then (2 ^ 32 - d.1) % 2 ^ 32 else d.1, ⟨d.2, d.2.isEmpty, false⟩)

/-- `is >> r` for an `unsigned` that held `v0`. -/
def extractUInt (v0 : Nat) (s : IStream) : Nat × IStream :=
  if s.good then
    match s.cs.dropWhile isSpace with
    | [] => (v0, ⟨[], true, true⟩)
    | cs => getUInt cs
  else (v0, { s with fail := true })

/-- `operator<<`, `/repo/spffl/bits/bit_t.cpp:13-17`. -/
def showBit (b : Bool) : List Char := if b then ['1'] else ['0']

/-- `operator>>`, `/repo/spffl/bits/bit_t.cpp:20-42`, into a bit that holds `b`; `r0` is what is found in the variable `r`. -/
def readBit (r0 : Nat) (b : Bool) (cs : List Char) : Bool × IStream :=
  match cs.dropWhile blank with
  | [] => (b, ⟨[], true, true⟩)
  | cs =>
    let r := extractUInt r0 (.ofChars cs)
    (r.1 % 2 = 1, r.2)

/-- `from_string`, `/repo/spffl/bits/bit_t.cpp:45-56`; `none` is the return value `false`. -/
def bitFromString (cs : List Char) : Option Bool :=
  let r := extractUInt 0 (.ofChars cs)
  if r.2.fail then none else some (r.1 % 2 = 1)

/-! ### Bit vectors -/

/-- `operator<<`, `/repo/spffl/bits/bit_vector_t.cpp:138-146`. -/
def showBV (v : BV) : Res (List Char) :=
  forUp 0 v.num_bits [] fun i os => do
    let b ← BV.getBit v.words i
    let os := os ++ showBit b
    ok (if i + 1 < v.num_bits then os ++ [' '] else os)

/-- `sqzout`, `/repo/spffl/bits/bit_vector_t.cpp:214-218`. -/
def sqzout (v : BV) : Res (List Char) :=
  forUp 0 v.num_bits [] fun i os => do
    let b ← BV.getBit v.words i
    ok (os ++ showBit b)

/-- `crout`, `/repo/spffl/bits/bit_vector_t.cpp:222-227`. -/
def crout (v : BV) : Res (List Char) :=
  forUp 0 v.num_bits [] fun i os => do
    let b ← BV.getBit v.words i
    ok (os ++ showBit b ++ ['\n'])

/-- Eight words more, `/repo/spffl/bits/bit_vector_t.cpp:181-192`. -/
def moreWords (u : BitVec 64) (ws : List (BitVec 64)) (num_words : Nat) : Res (List (BitVec 64)) := do
  let alloc_size := ws.length + 8
  let t ← BV.copyWords (List.replicate alloc_size u) ws num_words
  forUp num_words alloc_size t fun i t => wr t i 0#64

/-- The loop of `operator>>`, `/repo/spffl/bits/bit_vector_t.cpp:177-208`; the number of rounds is a parameter, the source has
no bound. -/
def bvLoop (u : BitVec 64) : Nat → BV → IStream → Res (BV × IStream)
  | 0, _, _ => timeout
  | n + 1, v, s =>
    if s.eof then ok (v, s)
    else do
      let ws ← (if v.words.length ≤ v.num_words then moreWords u v.words v.num_words else ok v.words)
      let r := extractInt 0 s
      if r.2.fail then ok ({ v with words := ws }, r.2)
      else do
        let ws ← (if r.1 % 2 = 1 then BV.setBit ws v.num_bits else ok ws)
        let nb ← chk (v.num_bits + 1)
        bvLoop u n ⟨false, ws, (nb.toNat + 63) / 64, nb.toNat⟩ r.2

/-- `operator>>(istringstream &)`, `/repo/spffl/bits/bit_vector_t.cpp:162-210`; nothing is kept of the vector read into. -/
def readBV (u : BitVec 64) (cs : List Char) : Res (BV × IStream) := do
  let ws ← forUp 0 8 (List.replicate 8 u) fun i ws => wr ws i 0#64
  bvLoop u (cs.length + 1) ⟨false, ws, 0, 0⟩ (.ofChars cs)

/-- `operator>>(istream &)`, `/repo/spffl/bits/bit_vector_t.cpp:149-159`. -/
def readBVLine (u : BitVec 64) (cs : List Char) : Res (BV × IStream) :=
  let g := VText.getLine 2048 cs
  do
    let r ← readBV u g.1
    ok (r.1, ⟨g.2.1, g.2.2.1, g.2.2.2 || r.2.fail⟩)

/-! ### Bit matrices -/

/-- `operator<<`, `/repo/spffl/bits/bit_matrix_t.cpp:189-194`. -/
def showBM (A : BM) : Res (List Char) :=
  forUp 0 A.num_rows [] fun i os => do
    let r ← rd A.rows i
    let t ← showBV r
    ok (os ++ t ++ ['\n'])

/-- Forty rows more, `/repo/spffl/bits/bit_matrix_t.cpp:209-217`. -/
def moreRows (rs : List BV) (num_rows : Nat) : Res (List BV) :=
  forUp 0 num_rows (List.replicate (rs.length + 40) BV.empty) fun i t => do
    let v ← rd rs i
    BM.assignRow t i v

/-- The loop over the lines, `/repo/spffl/bits/bit_matrix_t.cpp:204-255`: the number of rows, the rows, and the stream. -/
def bmLoop (u : BitVec 64) : Nat → Nat → List BV → List Char → Res (Nat × List BV × IStream × VText.Left)
  | 0, _, _, _ => timeout
  | n + 1, r, rs, cs => do
    let rs ← (if rs.length ≤ r then moreRows rs r else ok rs)
    let g := VText.getLine 8192 cs
    if g.2.2.1 then ok (r, rs, ⟨g.2.1, false, false⟩, .done)
    else if g.2.2.2 then ok (r, rs, ⟨g.2.1, false, true⟩, .done)
    else
      let l := g.1.takeWhile (· ≠ '#')
      if l.all isSpace then
        if r = 0 then bmLoop u n r rs g.2.1 else ok (r, rs, ⟨g.2.1, false, false⟩, .done)
      else do
        let x ← readBV u l
        let rs ← wr rs r x.1
        if x.2.fail then ok (r, rs, ⟨g.2.1, false, true⟩, .early) else bmLoop u n (r + 1) rs g.2.1

/-- The smallest and the largest number of columns, `/repo/spffl/bits/bit_matrix_t.cpp:269-279`. -/
def minMax (r : Nat) (rs : List BV) : Res (Nat × Nat) :=
  forUp 0 r (0x7fffffff, 0) fun i s => do
    let v ← rd rs i
    let c := v.num_bits
    let hi := if s.2 < c then c else s.2
    let lo := if c < s.1 then c else s.1
    ok (lo, hi)

/-- `operator>>`, `/repo/spffl/bits/bit_matrix_t.cpp:197-290`, into the matrix `A`, whose number of rows is not reset.  The
rows of the array from the number of rows on are left out of the result.  The bad bit is shown as the failure bit. -/
def readBM (u : BitVec 64) (A : BM) (cs : List Char) : Res (BM × IStream) := do
  let (r, rs, s, how) ← bmLoop u (cs.length + 1) A.num_rows (List.replicate 40 BV.empty) cs
  let keep := rs.take r
  match how with
  | .early => ok (⟨r, A.num_cols, keep⟩, s)
  | .done =>
    let p := s.peek
    let s := if p.1 = none then { p.2 with eof := true } else p.2
    if r = 0 then ok (⟨r, A.num_cols, keep⟩, { s with fail := true })
    else do
      let m ← minMax r rs
      if m.1 ≠ m.2 then ok (⟨r, A.num_cols, keep⟩, { s with fail := true })
      else ok (⟨r, m.2, keep⟩, s)

end Spffl.BText
