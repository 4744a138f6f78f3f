/-
Model of the residue classes fp_polymod_t and f2n_polymod_t (spffl/polynomials), which contain the same code
over fp_poly_t and f2n_poly_t (checked by a textual diff).  Line numbers refer to fp_polymod_t.cpp.
-/
import Verif.Model.CoefInst

namespace Spffl
open Res

/-- The data members. -/
structure CMod (α : Type) where
  residue : CPoly α
  modulus : CPoly α
deriving Repr, DecidableEq

namespace CMod
variable {α : Type} (O : CoefOps α)

/-- fp_polymod_t.cpp:15-20. -/
def mk' (r m : CPoly α) : Res (CMod α) := do
  let r ← CPoly.mod O r m
  ok ⟨r, m⟩

/-- fp_polymod_t.cpp:43-47: `prime_subfield_element`. -/
def psub (a : CMod α) (v : Int) : Res (CMod α) := do
  let r ← CPoly.psub O a.residue v
  mk' O r a.modulus

/-- fp_polymod_t.cpp:347-356. -/
def check_moduli (a b : CMod α) : Res Unit := do
  let e ← CPoly.eq O a.modulus b.modulus
  if e then ok () else throw

/-- fp_polymod_t.cpp:68-72. -/
def add (a b : CMod α) : Res (CMod α) := do
  check_moduli O a b
  let s ← CPoly.add O a.residue b.residue
  mk' O s a.modulus

/-- fp_polymod_t.cpp:75-79. -/
def sub (a b : CMod α) : Res (CMod α) := do
  check_moduli O a b
  let s ← CPoly.sub O a.residue b.residue
  mk' O s a.modulus

/-- fp_polymod_t.cpp:82-85: unary minus. -/
def neg (a : CMod α) : Res (CMod α) := do
  let s ← CPoly.neg O a.residue
  mk' O s a.modulus

/-- fp_polymod_t.cpp:88-92. -/
def mul (a b : CMod α) : Res (CMod α) := do
  check_moduli O a b
  let p ← CPoly.mul O a.residue b.residue
  mk' O p a.modulus

/-- fp_polymod_t.cpp:112-116: `operator*(intmod_t)`.  It scales the *modulus*. -/
def mulScalar (a : CMod α) (c : α) : Res (CMod α) := do
  let m ← CPoly.smul O a.modulus c
  ok ⟨a.residue, m⟩

/-- fp_polymod_t.cpp:149-170. -/
def recip (a : CMod α) : Res (Option (CMod α)) := do
  let r ← CPoly.ext_gcd O a.residue a.modulus
  if r.1.degree ≠ 0 then ok none
  else do
    let c ← CPoly.get_coeff O r.1 0
    match ← O.recip c with
    | none => throw
    | some ci => do
      let u ← CPoly.smul O r.2.1 ci
      let i ← mk' O u a.modulus
      ok (some i)

/-- fp_polymod_t.cpp:119-131. -/
def div (a b : CMod α) : Res (CMod α) := do
  check_moduli O a b
  match ← recip O b with
  | none => throw
  | some bi => mul O a bi

/-- fp_polymod_t.cpp:134-146. -/
def mod (a b : CMod α) : Res (CMod α) := do
  check_moduli O a b
  match ← recip O b with
  | none => throw
  | some _ => sub O a a

/-- fp_polymod_t.cpp:288-296. -/
def eq (a b : CMod α) : Res Bool := do
  let e ← CPoly.eq O a.residue b.residue
  if e then CPoly.eq O a.modulus b.modulus else ok false

/-- fp_polymod_t.cpp:310-313 and 322-325. -/
def lt (a b : CMod α) : Res Bool := do
  check_moduli O a b
  CPoly.lt O a.residue b.residue

def gt (a b : CMod α) : Res Bool := do
  check_moduli O a b
  CPoly.gt O a.residue b.residue

/-- fp_polymod_t.cpp:203,206: product of residues followed by `%`. -/
def mulRes (m a b : CPoly α) : Res (CPoly α) := do
  let p ← CPoly.mul O a b
  CPoly.mod O p m

/-- fp_polymod_t.cpp:201-209: the loop, `e` non-negative. -/
def expLoop (a rv : CMod α) (xp : CPoly α) (e : Nat) : Res (CMod α) := do
  let r ← sqMulLoop (mulRes O a.modulus) 32 rv.residue xp e
  ok ⟨r, rv.modulus⟩

/-- fp_polymod_t.cpp:173-210. -/
def exp (a : CMod α) (e : Int) : Res (CMod α) := do
  let zero ← psub O a 0
  let one ← psub O a 1
  if e = 0 then do
    let z ← eq O a zero
    if z then throw else ok one
  else if e < 0 then do
    let z ← eq O a zero
    if z then throw
    else do
      let me ← ineg e
      if e = me then throw
      else do
        let inv ← div O one a
        expLoop O a one inv.residue me.toNat
  else expLoop O a one a.residue e.toNat

/-- fp_polymod_t.cpp:95-109: `operator*(int)` with characteristic `p`; `%` is C++'s truncating remainder, so a
negative multiple that is not divisible by `p` leaves the object unchanged. -/
def mulIntP (a : CMod α) (p k : Int) : Res (CMod α) := do
  let k ← imod k p
  if k = 0 then sub O a a
  else forUp 1 k.toNat a fun _ rv => add O rv a

/-- f2n_polymod_t.cpp:94-104: `operator*(int)`. -/
def mulInt2 (a : CMod α) (k : Int) : Res (CMod α) :=
  if k % 2 = 1 then ok a else sub O a a

end CMod

/-- fp_polymod_t.cpp:95-109 with `get_characteristic` (57-59, fp_poly_t.cpp:123-125) read from the residue. -/
def FpMod.mulInt (a : CMod IntMod) (k : Int) : Res (CMod IntMod) := do
  let c ← rd a.residue.coeffs 0
  CMod.mulIntP IntMod.cops a c.modulus k

/-- fp_polymod_t as seen by fpn_poly_t.  `coeffs[i] * intmod_t(i, p)` in `deriv` (fpn_poly_t.cpp:509) is
`mulScalar`.  The default object has default polynomials for residue and modulus. -/
def FpMod.cops : CoefOps (CMod IntMod) where
  add := CMod.add IntMod.cops
  sub := CMod.sub IntMod.cops
  mul := CMod.mul IntMod.cops
  div := CMod.div IntMod.cops
  neg := CMod.neg IntMod.cops
  eq := CMod.eq IntMod.cops
  lt := CMod.lt IntMod.cops
  gt := CMod.gt IntMod.cops
  psub := CMod.psub IntMod.cops
  recip := CMod.recip IntMod.cops
  isInt := fun a v => CPoly.eqInt IntMod.cops a.residue v
  exp := CMod.exp IntMod.cops
  mulNat := fun a n => do
    let c ← rd a.residue.coeffs 0
    let k ← IntMod.mk' n c.modulus
    CMod.mulScalar IntMod.cops a k
  dflt := ⟨⟨0, [IntMod.default]⟩, ⟨0, [IntMod.default]⟩⟩

end Spffl
