import Verif.Model.ExprInst
import Verif.Model.VecText

/-!
# The calculators for polynomials and for residues of polynomials

The command `*_op` of `spiff` for the eight types: `/repo/cli/spiff/f2_poly_handlers.cpp:48-53`,
`f2_polymod_handlers.cpp:67-81`, `fp_poly_handlers.cpp:49-61`, `fp_polymod_handlers.cpp:51-70`,
`f2n_poly_handlers.cpp:53-68`, `f2n_polymod_handlers.cpp:52-71`, `fpn_poly_handlers.cpp:15-34`,
`fpn_polymod_handlers.cpp:14-37`.

Simplifications.  The moduli are given as objects; reading them from their arguments is in `Model/PolyText.lean`, except for
`sscanf` of the prime.  What is printed is the list of lines; the source prints each when it is known, the model returns them
at the end, so lines printed before an exception do not appear.
-/

namespace Spffl.Expr
open Res VText

variable {α : Type}

/-- Reading a literal, `/repo/spffl/cli_parser/cmd_line_ops.h:223-239`: `atom.type_val = zero`, then `>>`. -/
def elt (E : EltIO α) (zero : α) (s : String) : Res α := do
  let r ← E.read zero s.toList
  if r.2.fail then throw else ok r.1

/-- What is printed of a result, `/repo/spffl/cli_parser/cmd_line_ops.h:657-661`. -/
def showAtom (E : EltIO α) : Atom α → Res (List Char)
  | .val a => E.print a
  | .int n => ok (Scan.showInt n)

/-- `cmd_line_parse`, `/repo/spffl/cli_parser/cmd_line_ops.h:641-666`, with what it prints. -/
def calcOp (O : EOps α) (E : EltIO α) (zero one : α) (argv : List String) : Res (List (List Char)) := do
  let out ← parse (scalar O zero one (elt E zero) (fun s => Scan.readInt s.toList)) argv
  each (showAtom E) out

/-- `f2_poly_t`: `/repo/spffl/polynomials/f2_poly_t.cpp:102-178,440-457`. -/
def f2Ops : EOps F2P where
  neg := F2P.neg
  add := F2P.add
  sub := F2P.sub
  mul := F2P.mul
  div := F2P.div
  mod := F2P.mod
  eq := F2P.eq
  ne := F2P.ne
  lt := F2P.lt
  le := F2P.le
  gt := F2P.gt
  ge := F2P.ge

/-- `f2_polymod_t`: the comparisons are `/repo/spffl/polynomials/f2_polymod_t.cpp:246-289`. -/
def f2modOps : EOps F2Mod where
  neg := F2Mod.neg
  add := F2Mod.add
  sub := F2Mod.sub
  mul := F2Mod.mul
  div := F2Mod.div
  mod := F2Mod.mod
  eq := F2Mod.eq
  ne a b := do
    let r ← F2Mod.eq a b
    ok (!r)
  lt := F2Mod.lt
  le a b := do
    F2Mod.check_moduli a b
    F2P.le a.residue b.residue
  gt a b := do
    F2Mod.check_moduli a b
    F2P.gt a.residue b.residue
  ge a b := do
    F2Mod.check_moduli a b
    F2P.ge a.residue b.residue

/-- `fp_poly_t`, `f2n_poly_t`, `fpn_poly_t`: the comparisons are `/repo/spffl/polynomials/fp_poly_t.cpp:654-681`,
`f2n_poly_t.cpp:678-705`, `fpn_poly_t.cpp:634-662`. -/
def cpolyOps (O : CoefOps α) : EOps (CPoly α) where
  neg := CPoly.neg O
  add := CPoly.add O
  sub := CPoly.sub O
  mul := CPoly.mul O
  div := CPoly.div O
  mod := CPoly.mod O
  eq := CPoly.eq O
  ne a b := do
    let d ← CPoly.cmp O a b
    ok (d != 0)
  lt := CPoly.lt O
  le := CPoly.le O
  gt := CPoly.gt O
  ge := CPoly.ge O

/-- `fp_polymod_t`, `f2n_polymod_t`, `fpn_polymod_t`: the comparisons are `/repo/spffl/polynomials/fp_polymod_t.cpp:296-339`,
`f2n_polymod_t.cpp:280-323`, `fpn_polymod_t.cpp:278-322`. -/
def cmodOps (O : CoefOps α) : EOps (CMod α) where
  neg := CMod.neg O
  add := CMod.add O
  sub := CMod.sub O
  mul := CMod.mul O
  div := CMod.div O
  mod := CMod.mod O
  eq := CMod.eq O
  ne a b := do
    let r ← CMod.eq O a b
    ok (!r)
  lt := CMod.lt O
  le a b := do
    CMod.check_moduli O a b
    CPoly.le O a.residue b.residue
  gt := CMod.gt O
  ge a b := do
    CMod.check_moduli O a b
    CPoly.ge O a.residue b.residue

/-- `f2_p_op_main`, `/repo/cli/spiff/f2_poly_handlers.cpp:48-53`. -/
def f2POp (argv : List String) : Res (List (List Char)) := calcOp f2Ops f2IO F2P.zero F2P.one argv

/-- `f2_pm_op_main`, `/repo/cli/spiff/f2_polymod_handlers.cpp:67-81`. -/
def f2PmOp (m : F2P) (argv : List String) : Res (List (List Char)) := do
  let zero ← F2Mod.mk' (F2P.ofInt 0) m
  let one ← F2Mod.mk' (F2P.ofInt 1) m
  calcOp f2modOps f2ModIO zero one argv

/-- `fp_p_op_main`, `/repo/cli/spiff/fp_poly_handlers.cpp:49-61`, with `fp_poly_t(int, int)`,
`/repo/spffl/polynomials/fp_poly_t.cpp:53-58`. -/
def fpPOp (p : Int) (argv : List String) : Res (List (List Char)) := do
  let z ← IntMod.mk' 0 p
  let zero ← CPoly.const IntMod.cops z
  let o ← IntMod.mk' 1 p
  let one ← CPoly.const IntMod.cops o
  calcOp (cpolyOps IntMod.cops) fpIO zero one argv

/-- The static `fp_polymod_t::prime_subfield_element(v, m)`, `/repo/spffl/polynomials/fp_polymod_t.cpp:51-53`. -/
def fpPmPsub (v : Int) (m : CPoly IntMod) : Res (CMod IntMod) := do
  let r ← CPoly.psub IntMod.cops m v
  CMod.mk' IntMod.cops r m

/-- `fp_pm_op_main`, `/repo/cli/spiff/fp_polymod_handlers.cpp:51-70`, once the modulus is read. -/
def fpPmOp (m : CPoly IntMod) (argv : List String) : Res (List (List Char)) := do
  let zero ← fpPmPsub 0 m
  let one ← fpPmPsub 1 m
  calcOp (cmodOps IntMod.cops) fpModIO zero one argv

/-- `f2n_poly_t::prime_subfield_element(v, m)`, `/repo/spffl/polynomials/f2n_poly_t.cpp:130-132`. -/
def f2nPsub (v : Int) (m : F2P) : Res (CPoly F2Mod) := do
  let c ← F2Mod.mk' (F2P.ofInt v) m
  CPoly.const F2Mod.cops c

/-- `f2n_p_op_main`, `/repo/cli/spiff/f2n_poly_handlers.cpp:53-68`. -/
def f2nPOp (m : F2P) (argv : List String) : Res (List (List Char)) := do
  let zero ← f2nPsub 0 m
  let one ← f2nPsub 1 m
  calcOp (cpolyOps F2Mod.cops) f2nIO zero one argv

/-- `f2n_polymod_t::prime_subfield_element(v, om)`, `/repo/spffl/polynomials/f2n_polymod_t.cpp:51-55`. -/
def f2nPmPsub (v : Int) (m : CPoly F2Mod) : Res (CMod F2Mod) := do
  let c ← CPoly.get_coeff F2Mod.cops m 0
  let r ← f2nPsub v c.modulus
  CMod.mk' F2Mod.cops r m

/-- `f2n_pm_op_main`, `/repo/cli/spiff/f2n_polymod_handlers.cpp:52-71`. -/
def f2nPmOp (m : CPoly F2Mod) (argv : List String) : Res (List (List Char)) := do
  let zero ← f2nPmPsub 0 m
  let one ← f2nPmPsub 1 m
  calcOp (cmodOps F2Mod.cops) f2nModIO zero one argv

/-- `fpn_poly_t::prime_subfield_element(v, m)`, `/repo/spffl/polynomials/fpn_poly_t.cpp:87-90`. -/
def fpnPsub (v : Int) (m : CPoly IntMod) : Res (CPoly (CMod IntMod)) := do
  let c ← CPoly.get_coeff IntMod.cops m 0
  let a ← IntMod.mk' v c.modulus
  let r ← CPoly.const IntMod.cops a
  let e ← CMod.mk' IntMod.cops r m
  CPoly.const FpMod.cops e

/-- `fpn_p_op_main`, `/repo/cli/spiff/fpn_poly_handlers.cpp:15-34`. -/
def fpnPOp (m : CPoly IntMod) (argv : List String) : Res (List (List Char)) := do
  let zero ← fpnPsub 0 m
  let one ← fpnPsub 1 m
  calcOp (cpolyOps FpMod.cops) fpnIO zero one argv

/-- `fpn_polymod_t::prime_subfield_element(v, om)`, `/repo/spffl/polynomials/fpn_polymod_t.cpp:51-55`. -/
def fpnPmPsub (v : Int) (m : CPoly (CMod IntMod)) : Res (CMod (CMod IntMod)) := do
  let c ← CPoly.get_coeff FpMod.cops m 0
  let r ← fpnPsub v c.modulus
  CMod.mk' FpMod.cops r m

/-- `fpn_pm_op_main`, `/repo/cli/spiff/fpn_polymod_handlers.cpp:14-37`. -/
def fpnPmOp (m : CPoly (CMod IntMod)) (argv : List String) : Res (List (List Char)) := do
  let zero ← fpnPmPsub 0 m
  let one ← fpnPmPsub 1 m
  calcOp (cmodOps FpMod.cops) fpnModIO zero one argv

end Spffl.Expr
