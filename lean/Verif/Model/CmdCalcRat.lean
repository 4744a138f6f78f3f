import Verif.Model.CmdCalc
import Verif.Model.PolyRatText

/-!
# Commands of the command-line tool: the calculators for quotients of polynomials

`/repo/cli/spiff/f2_polyrat_handlers.cpp:9-14,51-57`, `/repo/cli/spiff/fp_polyrat_handlers.cpp:8-45`,
`/repo/cli/spiff/f2n_polyrat_handlers.cpp:8-49`.
-/

namespace Spffl.Cmd
open Res Expr VText

/-- `/repo/cli/spiff/f2_polyrat_handlers.cpp:9-14`. -/
def f2_pr_op (r : List (List Char)) : Cmd Unit := do
  let z ← lift (pair (f2Rat 0) (f2Rat 1))
  scalarCmd (PRat.eops F2P.rops) (PRat.io F2P.rops F2P.rtext) z r

/-- `/repo/cli/spiff/f2_polyrat_handlers.cpp:51-57`. -/
def f2_pr_mat_op (files : String → Option (List Char)) (r : List (List Char)) : Cmd Unit := do
  let z ← lift (pair (f2Rat 0) (f2Rat 1))
  matCmd (PRat.tops F2P.rops ⟨F2P.zero, F2P.one⟩) (PRat.io F2P.rops F2P.rtext) files z r

/-- `/repo/cli/spiff/fp_polyrat_handlers.cpp:13-25`. -/
def fp_pr_op : List (List Char) → Cmd Unit :=
  calc1 intArg fun p r => do
    let z ← lift (pair (fpRat 0 p) (fpRat 1 p))
    scalarCmd (PRat.eops (CPoly.rops IntMod.cops)) (PRat.io (CPoly.rops IntMod.cops) fpRText) z r

/-- `/repo/cli/spiff/fp_polyrat_handlers.cpp:32-45`. -/
def fp_pr_mat_op (files : String → Option (List Char)) : List (List Char) → Cmd Unit :=
  calc1 intArg fun p r => do
    let z ← lift (pair (fpRat 0 p) (fpRat 1 p))
    let d : CPoly IntMod := ⟨0, [⟨0, 1⟩]⟩
    matCmd (PRat.tops (CPoly.rops IntMod.cops) ⟨d, d⟩) (PRat.io (CPoly.rops IntMod.cops) fpRText) files z r

/-- `/repo/cli/spiff/f2n_polyrat_handlers.cpp:12-27`. -/
def f2n_pr_op : List (List Char) → Cmd Unit :=
  calc1 f2Arg fun m r => do
    let z ← lift (pair (f2nRat 0 m) (f2nRat 1 m))
    scalarCmd (PRat.eops (CPoly.rops F2Mod.cops)) (PRat.io (CPoly.rops F2Mod.cops) f2nRText) z r

/-- `/repo/cli/spiff/f2n_polyrat_handlers.cpp:34-49`. -/
def f2n_pr_mat_op (files : String → Option (List Char)) : List (List Char) → Cmd Unit :=
  calc1 f2Arg fun m r => do
    let z ← lift (pair (f2nRat 0 m) (f2nRat 1 m))
    let d : CPoly F2Mod := ⟨0, [⟨F2P.zero, F2P.one⟩]⟩
    matCmd (PRat.tops (CPoly.rops F2Mod.cops) ⟨d, d⟩) (PRat.io (CPoly.rops F2Mod.cops) f2nRText) files z r

end Spffl.Cmd
