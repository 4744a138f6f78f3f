import Verif.Model.CmdPm

/-!
# Commands of the command-line tool: polynomials over Fp^n and cyclotomic polynomials

`/repo/cli/spiff/fpn_poly_handlers.cpp:63-141` and `/repo/cli/spiff/q_handlers.cpp:39-52`.
Not modelled: standard error.
-/

namespace Spffl.Cmd
open Res Scan Cyclo

/-- The functions of `fpn_poly_t`.  It has no factorisation: `factor`, `totient`, `irr` and `one` are not used below. -/
def fpnTool (m : CPoly IntMod) : Tool (CPoly (CMod IntMod)) where
  read cs := do
    let r ← PText.fpnFromString m cs
    ok (parsed r)
  sh := PText.fpnShow
  deg a := ok a.degree
  O := CPoly.ops FpMod.cops
  ne := polyNe FpMod.cops
  add := CPoly.add FpMod.cops
  gcd := CPoly.gcd FpMod.cops
  ext := CPoly.ext_gcd FpMod.cops
  factor _ := .ub
  totient _ := .ub
  irr _ := .ub
  one := .ub

/-- `/repo/cli/spiff/fpn_poly_handlers.cpp:68-112`. -/
def fpn_p_gcd : List (List Char) → Cmd Unit
  | [p, m, x, y] => do
    let m ← fpPmArg p m
    gcdCmd (fpnTool m) x y
  | [e, p, m, x, y] =>
    if e ≠ ['-', 'e'] then exit1
    else do
      let m ← fpPmArg p m
      extCmd (fpnTool m) false x y
  | _ => exit1

/-- `/repo/cli/spiff/fpn_poly_handlers.cpp:119-141`. -/
def fpn_p_qp : List (List Char) → Cmd Unit
  | p :: m :: x :: r => do
    let m ← fpPmArg p m
    (x :: r).forM (pQp1 (fpnTool m).sh fun q => fpn_poly_from_qpoly q m)
  | _ => exit1

/-- The loop, `/repo/cli/spiff/q_handlers.cpp:45-50`; the table of polynomials is that of `get_cyclo_qpoly`. -/
def cycloLoop : List (List Char) → Memo → Cmd Unit
  | [], _ => pure ()
  | cs :: r, m => do
    let n ← intArg cs
    let s ← lift (get_cyclo_qpoly n m)
    putLine PText.qShow s.1
    cycloLoop r s.2

/-- `/repo/cli/spiff/q_handlers.cpp:40-52`. -/
def q_cyclotomic : List (List Char) → Cmd Unit
  | [] => exit1
  | cs :: r => cycloLoop (cs :: r) Memo.init

end Spffl.Cmd
