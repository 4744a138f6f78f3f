/-
Model of spffl/intmath/intmod_t.cpp.  The function-level statics of `recip` (a one-entry totient cache)
are an explicit state argument.
-/
import Verif.Model.IntMath

namespace Spffl
open Res

/-- intmod_t.h: the two data members. -/
structure IntMod where
  residue : Int
  modulus : Int
deriving DecidableEq, Repr

namespace IntMod

/-- intmod_t.cpp:220-223: default constructor. -/
def default : IntMod := ⟨-1, 0⟩

/-- intmod_t.cpp:198-211: `intmod_t(int, int)`. -/
def mk' (r m : Int) : Res IntMod :=
  if m ≤ 0 then throw
  else do
    let r1 ← imod r m
    if r1 < 0 then do
      let r2 ← iadd r1 m
      ok ⟨r2, m⟩
    else ok ⟨r1, m⟩

/-- intmod_t.cpp:245-251. -/
def check_modulus (a : IntMod) : Res Unit := if a.modulus = 0 then throw else ok ()

/-- intmod_t.cpp:229-239. -/
def check_moduli (a b : IntMod) : Res Unit := do
  check_modulus a
  check_modulus b
  if a.modulus ≠ b.modulus then throw else ok ()

/-- intmod_t.cpp:261-265. -/
def add (a b : IntMod) : Res IntMod := do
  check_moduli a b
  let s ← iadd a.residue b.residue
  mk' s a.modulus

/-- intmod_t.cpp:268-272. -/
def sub (a b : IntMod) : Res IntMod := do
  check_moduli a b
  let s ← iadd a.modulus a.residue
  let d ← isub s b.residue
  mk' d a.modulus

/-- intmod_t.cpp:275-279: unary minus. -/
def neg (a : IntMod) : Res IntMod := do
  check_modulus a
  let d ← isub a.modulus a.residue
  mk' d a.modulus

/-- intmod_t.cpp:282-286. -/
def mul (a b : IntMod) : Res IntMod := do
  check_moduli a b
  let p ← imul a.residue b.residue
  mk' p a.modulus

/-- intmod_t.cpp:289-292: `operator+(int)`.  (No modulus check of its own; the constructor throws.) -/
def addInt (a : IntMod) (k : Int) : Res IntMod := do
  let s ← iadd a.residue k
  mk' s a.modulus

/-- intmod_t.cpp:295-298. -/
def subInt (a : IntMod) (k : Int) : Res IntMod := do
  let s ← iadd a.modulus a.residue
  let d ← isub s k
  mk' d a.modulus

/-- intmod_t.cpp:301-304. -/
def mulInt (a : IntMod) (k : Int) : Res IntMod := do
  let p ← imul a.residue k
  mk' p a.modulus

/-- intmod_t.cpp:138-148. -/
def eq (a b : IntMod) : Res Bool := do
  check_modulus a
  check_modulus b
  if a.residue ≠ b.residue then ok false
  else if a.modulus ≠ b.modulus then ok false
  else ok true

/-- intmod_t.cpp:156-159: `operator==(int)`. -/
def eqInt (a : IntMod) (k : Int) : Res Bool := do
  check_modulus a
  ok (a.residue == k)

/-- intmod_t.cpp:168-171. -/
def lt (a b : IntMod) : Res Bool := do
  check_moduli a b
  ok (decide (a.residue < b.residue))

/-- intmod_t.cpp:53-59: the square-and-multiply loop on residues; `e` as unsigned 32-bit. -/
def expLoop (m : Int) : Nat → Int → Int → Nat → Res Int
  | 0, rv, _, e => if e = 0 then ok rv else timeout
  | k + 1, rv, xp, e =>
    if e = 0 then ok rv
    else do
      let rv ← expMul m rv xp e
      let x2 ← imul xp xp
      let xp ← imod x2 m
      expLoop m k rv xp (e / 2)
where
  /-- intmod_t.cpp:54-56. -/
  expMul (m rv xp : Int) (e : Nat) : Res Int :=
    if e % 2 = 1 then do let p ← imul rv xp; imod p m else ok rv

/-- intmod_t.cpp:21-62 restricted to `e ≥ 0` (the branch `e < 0` is `exp` below). -/
def expNonneg (a : IntMod) (e : Int) : Res IntMod := do
  check_modulus a
  let zero ← mk' 0 a.modulus
  let one ← mk' 1 a.modulus
  if e = 0 then do
    let z ← eq a zero
    if z then throw else ok one
  else do
    let r ← expLoop a.modulus 32 one.residue a.residue (toU32 e)
    ok ⟨r, one.modulus⟩

/-- intmod_t.cpp:349-350: the static cache of `recip`. -/
structure Cache where
  mlast : Int
  phi : Int
deriving DecidableEq, Repr

/-- Initial values of the statics. -/
def Cache.init : Cache := ⟨2, 1⟩

/-- intmod_t.cpp:351-354: cache look-up / refill. -/
def refill (c : Cache) (m : Int) : Res Cache :=
  if m ≠ c.mlast then do
    let phi ← int_totient m
    ok ⟨m, phi⟩
  else ok c

/-- intmod_t.cpp:337-364: `recip`; `none` is the `false` return.
If the cached totient is 0 (modulus 1) the call `exp(-1)` throws for a zero residue and would otherwise
recurse for ever (`timeout`). -/
def recip (c : Cache) (a : IntMod) : Res (Option IntMod × Cache) := do
  check_modulus a
  if a.modulus = 2 then
    if a.residue = 0 then ok (none, c) else ok (some a, c)
  else do
    let c ← refill c a.modulus
    let e ← isub c.phi 1
    if e < 0 then do
      let zero ← mk' 0 a.modulus
      let z ← eq a zero
      if z then throw else timeout
    else do
      let rv ← expNonneg a e
      let p ← imul a.residue rv.residue
      let check ← imod p a.modulus
      if check ≠ 1 then ok (none, c) else ok (some rv, c)

/-- intmod_t.cpp:307-319: `operator/`. -/
def div (c : Cache) (a b : IntMod) : Res (IntMod × Cache) := do
  check_moduli a b
  let (bi, c) ← recip c b
  match bi with
  | none => throw
  | some bi => do
    let q ← mul a bi
    ok (q, c)

/-- intmod_t.cpp:322-334: `operator%`. -/
def mod (c : Cache) (a b : IntMod) : Res (IntMod × Cache) := do
  check_moduli a b
  let (bi, c) ← recip c b
  match bi with
  | none => throw
  | some _ => do
    let q ← sub a a
    ok (q, c)

/-- intmod_t.cpp:21-62: `exp` for any exponent.  `e == -e` negates `e`, undefined for `INT_MIN`. -/
def exp (c : Cache) (a : IntMod) (e : Int) : Res (IntMod × Cache) :=
  if e < 0 then do
    check_modulus a
    let zero ← mk' 0 a.modulus
    let one ← mk' 1 a.modulus
    let z ← eq a zero
    if z then throw
    else do
      let me ← ineg e
      if e = me then throw
      else do
        let (inv, c) ← div c one a
        let r ← expLoop a.modulus 32 one.residue inv.residue (toU32 me)
        ok (⟨r, one.modulus⟩, c)
  else do
    let r ← expNonneg a e
    ok (r, c)

/-- intmod_t.cpp:88-90: `operator>>` once the integer `k` has been scanned. -/
def readInto (a : IntMod) (k : Int) : Res IntMod := do
  check_modulus a
  let r ← imod k a.modulus
  ok ⟨r, a.modulus⟩

/-- intmod_t.cpp:15-18. -/
def prime_subfield_element (a : IntMod) (v : Int) : Res IntMod := mk' v a.modulus

end IntMod
end Spffl
