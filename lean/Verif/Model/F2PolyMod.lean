/-
Model of spffl/polynomials/f2_polymod_t.cpp: residues modulo a polynomial over F2.
-/
import Verif.Model.F2Poly
import Verif.Base.Ops

namespace Spffl
open Res

/-- f2_polymod_t.h: the two data members. -/
structure F2Mod where
  residue : F2P
  modulus : F2P
deriving DecidableEq, Repr

namespace F2Mod

/-- f2_polymod_t.cpp:15-20: `f2_polymod_t(residue, modulus)`. -/
def mk' (r m : F2P) : Res F2Mod := do
  let r ← F2P.mod r m
  ok ⟨r, m⟩

/-- f2_polymod_t.cpp:29-40: `prime_subfield_element`, member and static. -/
def prime_subfield_element (v : Int) (m : F2P) : Res F2Mod := mk' (F2P.ofInt v) m

/-- f2_polymod_t.cpp:304-312. -/
def check_moduli (a b : F2Mod) : Res Unit := do
  let ne ← F2P.ne a.modulus b.modulus
  if ne then throw else ok ()

/-- f2_polymod_t.cpp:53-57. -/
def add (a b : F2Mod) : Res F2Mod := do
  check_moduli a b
  let s ← F2P.add a.residue b.residue
  mk' s a.modulus

/-- f2_polymod_t.cpp:60-64. -/
def sub (a b : F2Mod) : Res F2Mod := do
  check_moduli a b
  let s ← F2P.sub a.residue b.residue
  mk' s a.modulus

/-- f2_polymod_t.cpp:67-70: unary minus. -/
def neg (a : F2Mod) : Res F2Mod := do
  let s ← F2P.neg a.residue
  mk' s a.modulus

/-- f2_polymod_t.cpp:73-77. -/
def mul (a b : F2Mod) : Res F2Mod := do
  check_moduli a b
  let p ← F2P.mul a.residue b.residue
  mk' p a.modulus

/-- f2_polymod_t.cpp:80-88: `operator*(int)`. -/
def mulInt (a : F2Mod) (k : Int) : Res F2Mod :=
  if k % 2 = 1 then ok a else sub a a

/-- f2_polymod_t.cpp:121-132.  The out-parameter is the `some`. -/
def recip (a : F2Mod) : Res (Option F2Mod) := do
  let r ← F2P.ext_gcd a.residue a.modulus
  let d ← F2P.find_degree r.1
  if d ≠ 0 then ok none
  else do
    let i ← mk' r.2.1 a.modulus
    ok (some i)

/-- f2_polymod_t.cpp:91-103. -/
def div (a b : F2Mod) : Res F2Mod := do
  check_moduli a b
  match ← recip b with
  | none => throw
  | some bi => mul a bi

/-- f2_polymod_t.cpp:106-118. -/
def mod (a b : F2Mod) : Res F2Mod := do
  check_moduli a b
  match ← recip b with
  | none => throw
  | some _ => sub a a

/-- f2_polymod_t.cpp:246-254. -/
def eq (a b : F2Mod) : Res Bool := do
  let ne ← F2P.ne a.residue b.residue
  if ne then ok false
  else do
    let ne ← F2P.ne a.modulus b.modulus
    if ne then ok false else ok true

/-- f2_polymod_t.cpp:262: `operator==(int)`. -/
def eqInt (a : F2Mod) (v : Int) : Res Bool := F2P.eqInt a.residue v

/-- f2_polymod_t.cpp:268-271. -/
def lt (a b : F2Mod) : Res Bool := do
  check_moduli a b
  F2P.lt a.residue b.residue

/-- f2_polymod_t.cpp:167,170: product of residues followed by `%`. -/
def mulRes (m : F2P) (a b : F2P) : Res F2P := do
  let p ← F2P.mul a b
  F2P.mod p m

/-- f2_polymod_t.cpp:165-172: the loop, `e` non-negative. -/
def expLoop (a : F2Mod) (rv : F2Mod) (xp : F2P) (e : Nat) : Res F2Mod := do
  let r ← sqMulLoop (mulRes a.modulus) 32 rv.residue xp e
  ok ⟨r, rv.modulus⟩

/-- f2_polymod_t.cpp:135-173.  `-e` for `INT_MIN` is undefined (line 154). -/
def exp (a : F2Mod) (e : Int) : Res F2Mod := do
  let zero ← mk' F2P.zero a.modulus
  let one ← mk' F2P.one a.modulus
  if e = 0 then do
    let z ← eq a zero
    if z then throw else ok one
  else if e < 0 then do
    let z ← eq a zero
    if z then throw
    else do
      let me ← ineg e
      if e = me then throw
      else do
        let inv ← div one a
        expLoop a one inv.residue me.toNat
  else expLoop a one a.residue e.toNat

/-- f2_polymod_t.cpp:298-301. -/
def change_modulus (a : F2Mod) (m : F2P) : Res F2Mod := mk' a.residue m

/-- f2_polymod_t.cpp:183-194: `operator>>`: (value, fail bit, unread characters); the modulus is kept. -/
def read (s : List Char) (a : F2Mod) : Res (F2Mod × Bool × List Char) := do
  let r ← F2P.read s
  let q ← F2P.mod r.1 a.modulus
  ok (⟨q, a.modulus⟩, r.2)

/-- f2_polymod_t.cpp:176-180: `operator<<`. -/
def print (a : F2Mod) : Res (List Char) := do
  let d ← F2P.find_degree a.modulus
  F2P.dprint a.residue (d - 1)

/-- The operators seen by `tvector`, `tmatrix` and the polynomial classes over this type. -/
def ops : EltOps F2Mod where
  add := add
  sub := sub
  mul := mul
  div := div
  neg := neg
  eq := eq
  lt := lt

end F2Mod
end Spffl
