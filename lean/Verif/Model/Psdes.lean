/- Model of spffl/bitrand/psdes.cpp: the 4-round hash and the reentrant generators. -/
import Verif.Base.Res

namespace Spffl

abbrev W32 := BitVec 32

/-- psdes.cpp:133. -/
def psdes_c1 : List W32 := [0xbaa96887, 0x1e17d32c, 0x03bcdc3c, 0x0f33d1b2]
/-- psdes.cpp:134. -/
def psdes_c2 : List W32 := [0x4b0f3b58, 0xe874f0c3, 0x6955c5a6, 0x55a7ca46]

/-- psdes.cpp:139-144 without the final XOR: the round function applied to the right word.
All arithmetic is unsigned 32-bit, hence wraps. -/
def psdesF (k1 k2 : W32) (iswap : W32) : W32 :=
  let ia := iswap ^^^ k1
  let ial := ia &&& 0xffff
  let iah := ia >>> 16
  let ib := ial * ial + ~~~(iah * iah)
  let ic := (ib >>> 16) ||| ((ib &&& 0xffff) <<< 16)
  (ic ^^^ k2) + ial * iah

/-- psdes.cpp:137-146: one round on `(word0, word1)`. -/
def psdesRound (k : W32 × W32) (w : W32 × W32) : W32 × W32 :=
  (w.2, w.1 ^^^ psdesF k.1 k.2 w.2)

/-- psdes.cpp:130-148: `psdes_hash_64`, the loop over the four key pairs. -/
def psdes_hash_64 (w : W32 × W32) : W32 × W32 :=
  (psdes_c1.zip psdes_c2).foldl (fun w k => psdesRound k w) w

/-- psdes.cpp:71-74 / 87-90: the state update `(state0, state1)`. -/
def psdesNext (s : W32 × W32) : W32 × W32 :=
  let s1 := s.2 + 1
  if s1 = 0 then (s.1 + 1, s1) else (s.1, s1)

/-- psdes.cpp:81-91: `iran64_r`, returning `(output pair, new state)`. -/
def iran64_r (s : W32 × W32) : (W32 × W32) × (W32 × W32) := (psdes_hash_64 s, psdesNext s)

/-- psdes.cpp:66-78: `iran32_r`, returning `(low word of the hash, new state)`. -/
def iran32_r (s : W32 × W32) : W32 × (W32 × W32) := ((psdes_hash_64 s).2, psdesNext s)

/-- The `n`-th output (from 0) of a run of `iran64_r` calls started in state `s`. -/
def run64 : Nat → W32 × W32 → W32 × W32
  | 0, s => (iran64_r s).1
  | n + 1, s => run64 n (iran64_r s).2

/-- The `n`-th output of a run of `iran32_r` calls. -/
def run32 : Nat → W32 × W32 → W32
  | 0, s => (iran32_r s).1
  | n + 1, s => run32 n (iran32_r s).2

end Spffl
