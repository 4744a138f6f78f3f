import Verif.Model.Expr
import Verif.Model.CoefInst
import Verif.Model.Scan

/-!
# The element types the scalar evaluator is used with

`/repo/cli/spiff/fp_handlers.cpp:67-79` (`intmod_t`), `q_handlers.cpp:8-13` (`intrat_t`), `z_handlers.cpp:17-20`
(`int`).
-/

namespace Spffl.Expr
open Res

/-- `intmod_t`: `/repo/spffl/intmath/intmod_t.cpp:138-189` for the comparisons, the rest as in `IntMod.cops`. -/
def intmodOps : EOps IntMod where
  neg := IntMod.neg
  add := IntMod.add
  sub := IntMod.sub
  mul := IntMod.mul
  div a b := do
    let r ← IntMod.div IntMod.Cache.init a b
    ok r.1
  mod a b := do
    let r ← IntMod.mod IntMod.Cache.init a b
    ok r.1
  eq := IntMod.eq
  ne a b := do
    let r ← IntMod.eq a b
    ok (!r)
  lt := IntMod.lt
  le a b := do
    IntMod.check_moduli a b
    ok (decide (a.residue ≤ b.residue))
  gt a b := do
    IntMod.check_moduli a b
    ok (decide (b.residue < a.residue))
  ge a b := do
    IntMod.check_moduli a b
    ok (decide (b.residue ≤ a.residue))

/-- `fp_op_main`, `/repo/cli/spiff/fp_handlers.cpp:67-79`, once the modulus is read.  `atom.type_val = zero` sets the
modulus that `operator>>` reads into. -/
def fpOp (p : Int) (argv : List String) : Res (List (Atom IntMod)) := do
  let zero ← IntMod.mk' 0 p
  let one ← IntMod.mk' 1 p
  parse (scalar intmodOps zero one (fun s => Scan.readMod p s.toList) (fun s => Scan.readInt s.toList)) argv

/-- `intrat_t`: `/repo/spffl/intmath/intrat_t.cpp:69-121,282-325`. -/
def intratOps : EOps IntRat where
  neg := IntRat.neg
  add := IntRat.add
  sub := IntRat.sub
  mul := IntRat.mul
  div := IntRat.div
  mod := IntRat.mod
  eq := IntRat.eq
  ne a b := do
    let r ← IntRat.eq a b
    ok (!r)
  lt := IntRat.lt
  le := IntRat.le
  gt := IntRat.gt
  ge := IntRat.ge

/-- `q_op_main`, `/repo/cli/spiff/q_handlers.cpp:8-13`. -/
def qOp (argv : List String) : Res (List (Atom IntRat)) := do
  let zero ← IntRat.ofInt 0
  let one ← IntRat.ofInt 1
  parse (scalar intratOps zero one (fun s => Scan.readRat s.toList) (fun s => Scan.readInt s.toList)) argv

/-- Built-in `int`. -/
def intOps : EOps Int where
  neg := ineg
  add := iadd
  sub := isub
  mul := imul
  div := idiv
  mod := imod
  eq a b := ok (a == b)
  ne a b := ok (a != b)
  lt a b := ok (decide (a < b))
  le a b := ok (decide (a ≤ b))
  gt a b := ok (decide (b < a))
  ge a b := ok (decide (b ≤ a))

/-- `z_op_main`, `/repo/cli/spiff/z_handlers.cpp:17-20`. -/
def zOp (argv : List String) : Res (List (Atom Int)) :=
  parse (scalar intOps 0 1 (fun s => Scan.readInt s.toList) (fun s => Scan.readInt s.toList)) argv

end Spffl.Expr
