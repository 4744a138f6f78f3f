/-
The coefficient types of the polynomial classes: intmod_t for fp_poly_t, f2_polymod_t for f2n_poly_t.
(intrat_t for q_poly_t is in Model/IntRat, fp_polymod_t for fpn_poly_t in Model/CMod.)
-/
import Verif.Model.CPoly
import Verif.Model.IntMod
import Verif.Model.F2PolyMod

namespace Spffl
open Res

/-- intmod_t as seen by fp_poly_t.  `recip`'s one-entry totient cache is started afresh for each call; C13
shows that its contents never change the result. -/
def IntMod.cops : CoefOps IntMod where
  add := IntMod.add
  sub := IntMod.sub
  mul := IntMod.mul
  div := fun a b => do let r ← IntMod.div IntMod.Cache.init a b; ok r.1
  neg := IntMod.neg
  eq := IntMod.eq
  lt := IntMod.lt
  gt := fun a b => do IntMod.check_moduli a b; ok (decide (b.residue < a.residue))
  psub := IntMod.prime_subfield_element
  recip := fun a => do let r ← IntMod.recip IntMod.Cache.init a; ok r.1
  isInt := fun a v => ok (a.residue == v)
  exp := fun a e => do let r ← IntMod.exp IntMod.Cache.init a e; ok r.1
  mulNat := fun a n => do let k ← IntMod.mk' n a.modulus; IntMod.mul a k
  dflt := IntMod.default

/-- f2_polymod_t.cpp:280-283. -/
def F2Mod.gt (a b : F2Mod) : Res Bool := do
  F2Mod.check_moduli a b
  F2P.gt a.residue b.residue

/-- f2_polymod_t as seen by f2n_poly_t.  The default constructor (f2_polymod_t.h) leaves both members default
constructed. -/
def F2Mod.cops : CoefOps F2Mod where
  add := F2Mod.add
  sub := F2Mod.sub
  mul := F2Mod.mul
  div := F2Mod.div
  neg := F2Mod.neg
  eq := F2Mod.eq
  lt := F2Mod.lt
  gt := F2Mod.gt
  psub := fun a v => F2Mod.prime_subfield_element v a.modulus
  recip := F2Mod.recip
  isInt := fun a v => F2P.eqInt a.residue v
  exp := F2Mod.exp
  mulNat := fun a n => do let k ← F2Mod.mk' (F2P.ofInt n) a.modulus; F2Mod.mul a k
  dflt := ⟨F2P.zero, F2P.zero⟩

end Spffl
