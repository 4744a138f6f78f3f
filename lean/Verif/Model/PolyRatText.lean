import Verif.Model.PolyRat
import Verif.Model.ExprInst3

/-!
# Text input and output of quotients of polynomials, and their calculators

`/repo/spffl/rationals/f2_polyrat_t.cpp:181-259`, `fp_polyrat_t.cpp:177-257`, `f2n_polyrat_t.cpp:177-261`; the commands
`f2_pr_op`, `f2_pr_mat_op`, `fp_pr_op`, `fp_pr_mat_op`, `f2n_pr_op`, `f2n_pr_mat_op` of `/repo/cli/spiff/f2_polyrat_handlers.cpp`,
`fp_polyrat_handlers.cpp`, `f2n_polyrat_handlers.cpp`.  The three classes have the same text up to the polynomial class and the
one that stands for a missing denominator; line numbers below are those of `fp_polyrat_t.cpp`.

Simplifications.  The prime and the modulus are given as a number and an object.  Printing is at the end, as in
`Model/ExprInst2.lean`.
-/

namespace Spffl
open Res Scan VText

/-- What the text operators use of a polynomial class: its own text operators, and `== 1`. -/
structure RatText (P : Type) extends EltIO P where
  isOne : P → Res Bool

namespace PRat
variable {P : Type} (O : RatOps P) (T : RatText P)

/-- `operator<<`, `/repo/spffl/rationals/fp_polyrat_t.cpp:177-183`. -/
def shown (a : PRat P) : Res (List Char) := do
  let n ← T.print a.numer
  let z ← T.isOne a.denom
  if !z then do
    let d ← T.print a.denom
    ok (n ++ '/' :: d)
  else ok n

/-- After the numerator `n`, `/repo/spffl/rationals/fp_polyrat_t.cpp:236-246`: the denominator and the stream.  `d0` is the
denominator the object held.  The last branch clears the state bits, also those of a failed numerator. -/
def denomText (n d0 : P) (s : IStream) : Res (P × IStream) :=
  if s.eof then do
    let o ← O.psub n 1
    ok (o, s)
  else
    let p := s.peek
    if p.1 = some '/' then T.read d0 p.2.cs.tail
    else do
      let o ← O.psub n 1
      ok (o, ⟨p.2.cs, false, false⟩)

/-- `operator>>(istringstream &)`, `/repo/spffl/rationals/fp_polyrat_t.cpp:219-248`, into `a`.  If `peek` meets the end of the
text while skipping, the numerator is read from an empty text. -/
def extract (a : PRat P) (cs : List Char) : Res (PRat P × IStream) := do
  let r ← T.read a.numer (skipRat cs)
  let d ← denomText O T r.1 a.denom r.2
  let q ← simplify O ⟨r.1, d.1⟩
  ok (q, d.2)

/-- As `denomText`, for `operator>>(istream &)`, `/repo/spffl/rationals/fp_polyrat_t.cpp:204-214`: the test for the end of the
text does not keep the second test from being made, and that one clears the state bits.  The first assignment to the denominator
is overwritten then. -/
def denomTextS (n d0 : P) (s : IStream) : Res (P × IStream) :=
  let p := s.peek
  if p.1 = some '/' then T.read d0 p.2.cs.tail
  else do
    let o ← O.psub n 1
    ok (o, ⟨p.2.cs, false, false⟩)

/-- `operator>>(istream &)`, `/repo/spffl/rationals/fp_polyrat_t.cpp:186-217`, and `f2_polyrat_t.cpp:189-220`.  For `f2n_polyrat_t`
the numerator would be read by another operator than for `extract`, which is not modelled here. -/
def extractS (a : PRat P) (cs : List Char) : Res (PRat P × IStream) := do
  let r ← T.read a.numer (skipRat cs)
  let d ← denomTextS O T r.1 a.denom r.2
  let q ← simplify O ⟨r.1, d.1⟩
  ok (q, d.2)

/-- `from_string`, `/repo/spffl/rationals/fp_polyrat_t.cpp:251-257`, once numerator and denominator are `zero` and `one`: the
object and whether it was accepted.  In `f2_polyrat_t.cpp:255-259` the object keeps what it held. -/
def ofString (a : PRat P) (cs : List Char) : Res (PRat P × Bool) := do
  let r ← extract O T a cs
  ok (r.1, !r.2.fail)

/-- As elements of vectors and matrices. -/
def io : EltIO (PRat P) where
  sub := sub O
  read := extract O T
  print := shown T

/-- The operators of the calculator, `/repo/spffl/rationals/fp_polyrat_t.cpp:80-133,290-338`. -/
def eops : Expr.EOps (PRat P) where
  neg := neg O
  add := add O
  sub := sub O
  mul := mul O
  div := div O
  mod := mod O
  eq := eq O
  ne a b := do
    let r ← eq O a b
    ok (!r)
  lt := lt O
  le := le O
  gt := gt O
  ge := ge O

/-- The operators that `tmatrix` uses; `d` is what the default constructor makes. -/
def tops (d : PRat P) : TOps (PRat P) where
  add := add O
  sub := sub O
  mul := mul O
  div := div O
  neg := neg O
  eq := eq O
  lt := lt O
  dflt := d

end PRat

/-- `f2_poly_t` -/
def F2P.rtext : RatText F2P := { f2IO with isOne := fun a => F2P.eqInt a 1 }

/-- `fp_poly_t` -/
def fpRText : RatText (CPoly IntMod) := { fpIO with isOne := fun a => CPoly.eqInt IntMod.cops a 1 }

/-- `f2n_poly_t` -/
def f2nRText : RatText (CPoly F2Mod) := { f2nIO with isOne := fun a => CPoly.eqInt F2Mod.cops a 1 }

namespace Expr

/-- `f2_polyrat_t(v)` for an `int`, `/repo/spffl/rationals/f2_polyrat_t.cpp:31-35`, and for a polynomial, `:24-28`. -/
def f2Rat (v : Int) : Res (PRat F2P) := PRat.mk1 F2P.rops (F2P.ofInt v)

/-- The static `fp_polyrat_t::prime_subfield_element(v, p)`, `/repo/spffl/rationals/fp_polyrat_t.cpp:50-53`. -/
def fpRat (v p : Int) : Res (PRat (CPoly IntMod)) := do
  let c ← IntMod.mk' v p
  let n ← CPoly.const IntMod.cops c
  PRat.mk1 (CPoly.rops IntMod.cops) n

/-- The static `f2n_polyrat_t::prime_subfield_element(v, m)`, `/repo/spffl/rationals/f2n_polyrat_t.cpp:50-54`. -/
def f2nRat (v : Int) (m : F2P) : Res (PRat (CPoly F2Mod)) := do
  let n ← f2nPsub v m
  PRat.mk1 (CPoly.rops F2Mod.cops) n

/-- `f2_pr_op_main`, `/repo/cli/spiff/f2_polyrat_handlers.cpp:9-14`. -/
def f2PrOp (argv : List String) : Res (List (List Char)) := do
  let zero ← f2Rat 0
  let one ← f2Rat 1
  calcOp (PRat.eops F2P.rops) (PRat.io F2P.rops F2P.rtext) zero one argv

/-- `f2_pr_mat_op_main`, `/repo/cli/spiff/f2_polyrat_handlers.cpp:51-57`; the default constructor is
`/repo/spffl/rationals/f2_polyrat_t.cpp:44-47`. -/
def f2PrMatOp (files : String → Option (List Char)) (argv : List String) : Res (List (List Char)) := do
  let zero ← f2Rat 0
  let one ← f2Rat 1
  matOp (PRat.tops F2P.rops ⟨F2P.zero, F2P.one⟩) (PRat.io F2P.rops F2P.rtext) files zero one argv

/-- `fp_pr_op_main`, `/repo/cli/spiff/fp_polyrat_handlers.cpp:13-25`. -/
def fpPrOp (p : Int) (argv : List String) : Res (List (List Char)) := do
  let zero ← fpRat 0 p
  let one ← fpRat 1 p
  calcOp (PRat.eops (CPoly.rops IntMod.cops)) (PRat.io (CPoly.rops IntMod.cops) fpRText) zero one argv

/-- `fp_pr_mat_op_main`, `/repo/cli/spiff/fp_polyrat_handlers.cpp:32-45`; the default constructors are
`/repo/spffl/rationals/fp_polyrat_t.cpp:37` and `/repo/spffl/polynomials/fp_poly_t.cpp:16-21`. -/
def fpPrMatOp (p : Int) (files : String → Option (List Char)) (argv : List String) : Res (List (List Char)) := do
  let zero ← fpRat 0 p
  let one ← fpRat 1 p
  let d : CPoly IntMod := ⟨0, [⟨0, 1⟩]⟩
  matOp (PRat.tops (CPoly.rops IntMod.cops) ⟨d, d⟩) (PRat.io (CPoly.rops IntMod.cops) fpRText) files zero one argv

/-- `f2n_pr_op_main`, `/repo/cli/spiff/f2n_polyrat_handlers.cpp:12-27`. -/
def f2nPrOp (m : F2P) (argv : List String) : Res (List (List Char)) := do
  let zero ← f2nRat 0 m
  let one ← f2nRat 1 m
  calcOp (PRat.eops (CPoly.rops F2Mod.cops)) (PRat.io (CPoly.rops F2Mod.cops) f2nRText) zero one argv

/-- `f2n_pr_mat_op_main`, `/repo/cli/spiff/f2n_polyrat_handlers.cpp:34-49`; the default constructors are
`/repo/spffl/rationals/f2n_polyrat_t.cpp:37` and `/repo/spffl/polynomials/f2n_poly_t.cpp:16-21`. -/
def f2nPrMatOp (m : F2P) (files : String → Option (List Char)) (argv : List String) : Res (List (List Char)) := do
  let zero ← f2nRat 0 m
  let one ← f2nRat 1 m
  let d : CPoly F2Mod := ⟨0, [⟨F2P.zero, F2P.one⟩]⟩
  matOp (PRat.tops (CPoly.rops F2Mod.cops) ⟨d, d⟩) (PRat.io (CPoly.rops F2Mod.cops) f2nRText) files zero one argv

end Expr
end Spffl
