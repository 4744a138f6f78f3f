import Verif.Model.CmdPm
import Verif.Model.CmdMat
import Verif.Model.CmdRest
import Verif.Model.ExprInst3

/-!
# Commands of the command-line tool: the calculators

The commands `*_op`, `*_vec_op` and `*_mat_op`: reading the modulus, then `cmd_line_parse`, `cmd_line_vec_parse` or
`cmd_line_mat_parse` (`/repo/spffl/cli_parser/cmd_line_ops.h:641-666`, `cmd_line_vector_ops.h:543-584`,
`cmd_line_matrix_ops.h:685-728`) with what they print and when.  The calculators for rational functions are in
Model/CmdCalcRat.lean.  Not modelled: `z_mat_op`, `q_p_op` and the matrices of polynomials.
-/

namespace Spffl.Cmd
open Res Expr VText

section
variable {A α M : Type}

/-- The loop of `cmd_line_parse`, `/repo/spffl/cli_parser/cmd_line_ops.h:651-665`, `cmd_line_vector_ops.h:551-581`,
`cmd_line_matrix_ops.h:693-724`: a result is printed before it is known whether anything follows.  `sh` gives what is printed. -/
def calcLoop (D : Dialect A) (sh : A → Res (List Char)) : Nat → St A → Cmd Unit
  | 0, _ => ⟨.timeout⟩
  | n + 1, s =>
    match s.1.tok with
    | .eol => pure ()
    | _ => do
      let s ← lift (pQ D (s.1.rest.length + 2) s)
      let v ← lift (popResult s.2)
      put sh v.1
      let c ← lift (matchEol D s.1)
      calcLoop D sh n (c, v.2)

/-- `cmd_line_parse` and the like. -/
def calcCmd (D : Dialect A) (sh : A → Res (List Char)) (args : List (List Char)) : Cmd Unit := do
  let c ← lift (lexan D 0 (args.map String.ofList))
  calcLoop D sh (args.length + 2) (c, [])

/-- A line. -/
def line (sh : A → Res (List Char)) (a : A) : Res (List Char) := do
  let t ← sh a
  ok (t ++ ['\n'])

/-- `cmd_line_parse`. -/
def scalarCmd (O : EOps α) (E : EltIO α) (z : α × α) : List (List Char) → Cmd Unit :=
  calcCmd (scalar O z.1 z.2 (elt E z.1) fun s => Scan.readInt s.toList) (line (showAtom E))

/-- `cmd_line_mat_parse`. -/
def matCmd (O : TOps α) (E : EltIO α) (files : String → Option (List Char)) (z : α × α) : List (List Char) → Cmd Unit :=
  calcCmd (matrix (matOps O z.1 z.2) (matScan E files z.1) fun s => Scan.readInt s.toList) (showMAtom E)

/-- `cmd_line_vec_parse`. -/
def vecCmd (O : TOps α) (ex : α → Int → Res α) (E : EltIO α) (zero : α) : List (List Char) → Cmd Unit :=
  calcCmd (vector (vecOps O ex) (vecScan E zero) fun s => Scan.readInt s.toList) (showVAtom E)

/-- Zero and one. -/
def pair (x y : Res α) : Res (α × α) := do
  let a ← x
  let b ← y
  ok (a, b)

/-- A command with one argument before the expression. -/
def calc1 (arg : List Char → Cmd M) (run : M → List (List Char) → Cmd Unit) : List (List Char) → Cmd Unit
  | m :: r => do
    let m ← arg m
    run m r
  | _ => exit1

/-- A command with two. -/
def calc2 (arg : List Char → List Char → Cmd M) (run : M → List (List Char) → Cmd Unit) : List (List Char) → Cmd Unit
  | p :: m :: r => do
    let m ← arg p m
    run m r
  | _ => exit1

/-- A command with three. -/
def calc3 (arg : List Char → List Char → List Char → Cmd M) (run : M → List (List Char) → Cmd Unit) : List (List Char) → Cmd Unit
  | p :: im :: om :: r => do
    let m ← arg p im om
    run m r
  | _ => exit1

end

/-! ### Numbers and bits -/

/-- What is printed of a result, for numbers: `/repo/spffl/cli_parser/cmd_line_ops.h:657-661`. -/
def showNum {A : Type} (sh : A → List Char) : Atom A → Res (List Char)
  | .val a => ok (sh a)
  | .int n => ok (Scan.showInt n)

/-- `/repo/cli/spiff/z_handlers.cpp:17-20`. -/
def z_op : List (List Char) → Cmd Unit :=
  calcCmd (scalar Expr.intOps 0 1 (fun s => Scan.readInt s.toList) fun s => Scan.readInt s.toList)
    (line (showNum Scan.showInt))

/-- `/repo/cli/spiff/q_handlers.cpp:8-13`. -/
def q_op (args : List (List Char)) : Cmd Unit := do
  let z ← lift (pair (IntRat.ofInt 0) (IntRat.ofInt 1))
  calcCmd (scalar Expr.intratOps z.1 z.2 (fun s => Scan.readRat s.toList) fun s => Scan.readInt s.toList)
    (line (showNum Scan.showRat)) args

/-- `/repo/cli/spiff/fp_handlers.cpp:67-79`. -/
def fp_op : List (List Char) → Cmd Unit :=
  calc1 intArg fun p r => do
    let z ← lift (pair (IntMod.mk' 0 p) (IntMod.mk' 1 p))
    calcCmd (scalar Expr.intmodOps z.1 z.2 (fun s => Scan.readMod p s.toList) fun s => Scan.readInt s.toList)
      (line (showNum fun a => Scan.showInt a.residue)) r

/-- The operators of `bit_t`, `/repo/spffl/bits/bit_t.h:46-83,118-133`. -/
def bitOps : EOps BitT where
  neg := BitT.tops.neg
  add := BitT.tops.add
  sub := BitT.tops.sub
  mul := BitT.tops.mul
  div := BitT.tops.div
  mod := BitT.mod
  eq a b := ok (a.residue == b.residue)
  ne a b := ok (a.residue != b.residue)
  lt a b := ok (decide (a.residue < b.residue))
  le a b := ok (decide (a.residue ≤ b.residue))
  gt a b := ok (decide (b.residue < a.residue))
  ge a b := ok (decide (b.residue ≤ a.residue))

/-- `/repo/cli/spiff/f2_handlers.cpp:11-15`. -/
def f2_op (r0 : Nat) : List (List Char) → Cmd Unit := scalarCmd bitOps (bitIO r0) (BitT.ofInt 0, BitT.ofInt 1)

/-! ### Polynomials and their residues -/

/-- `/repo/cli/spiff/f2_poly_handlers.cpp:48-53`. -/
def f2_p_op : List (List Char) → Cmd Unit := scalarCmd f2Ops f2IO (F2P.zero, F2P.one)

/-- `/repo/cli/spiff/f2_polymod_handlers.cpp:67-81`. -/
def f2_pm_op : List (List Char) → Cmd Unit :=
  calc1 f2Arg fun m r => do
    let z ← lift (pair (F2Mod.mk' (F2P.ofInt 0) m) (F2Mod.mk' (F2P.ofInt 1) m))
    scalarCmd f2modOps f2ModIO z r

/-- `/repo/cli/spiff/fp_poly_handlers.cpp:49-61`. -/
def fp_p_op : List (List Char) → Cmd Unit :=
  calc1 intArg fun p r => do
    let z ← lift (pair (IntMod.mk' 0 p >>= CPoly.const IntMod.cops) (IntMod.mk' 1 p >>= CPoly.const IntMod.cops))
    scalarCmd (cpolyOps IntMod.cops) fpIO z r

/-- `/repo/cli/spiff/fp_polymod_handlers.cpp:51-70`. -/
def fp_pm_op : List (List Char) → Cmd Unit :=
  calc2 fpPmArg fun m r => do
    let z ← lift (pair (fpPmPsub 0 m) (fpPmPsub 1 m))
    scalarCmd (cmodOps IntMod.cops) fpModIO z r

/-- `/repo/cli/spiff/f2n_poly_handlers.cpp:53-68`. -/
def f2n_p_op : List (List Char) → Cmd Unit :=
  calc1 f2Arg fun m r => do
    let z ← lift (pair (f2nPsub 0 m) (f2nPsub 1 m))
    scalarCmd (cpolyOps F2Mod.cops) f2nIO z r

/-- `/repo/cli/spiff/f2n_polymod_handlers.cpp:52-71`. -/
def f2n_pm_op : List (List Char) → Cmd Unit :=
  calc2 f2nPmArg fun m r => do
    let z ← lift (pair (f2nPmPsub 0 m) (f2nPmPsub 1 m))
    scalarCmd (cmodOps F2Mod.cops) f2nModIO z r

/-- `/repo/cli/spiff/fpn_poly_handlers.cpp:15-34`. -/
def fpn_p_op : List (List Char) → Cmd Unit :=
  calc2 fpPmArg fun m r => do
    let z ← lift (pair (fpnPsub 0 m) (fpnPsub 1 m))
    scalarCmd (cpolyOps FpMod.cops) fpnIO z r

/-- `/repo/cli/spiff/fpn_polymod_handlers.cpp:21-32`: the first three arguments. -/
def fpnPmArg (p im om : List Char) : Cmd (CPoly (CMod IntMod)) := do
  let im ← fpPmArg p im
  readArg (fpnTool im).read om

/-- `/repo/cli/spiff/fpn_polymod_handlers.cpp:14-39`. -/
def fpn_pm_op : List (List Char) → Cmd Unit :=
  calc3 fpnPmArg fun m r => do
    let z ← lift (pair (fpnPmPsub 0 m) (fpnPmPsub 1 m))
    scalarCmd (cmodOps FpMod.cops) fpnModIO z r

/-! ### Vectors and matrices -/

/-- `/repo/cli/spiff/f2_handlers.cpp:41-51`. -/
def f2_mat_op (r0 : Nat) (files : String → Option (List Char)) : List (List Char) → Cmd Unit :=
  matCmd BitT.tops (bitIO r0) files (BitT.ofInt 0, BitT.ofInt 1)
def f2_vec_op (r0 : Nat) : List (List Char) → Cmd Unit := vecCmd BitT.tops BitT.exp (bitIO r0) (BitT.ofInt 0)

/-- `/repo/cli/spiff/fp_handlers.cpp:398-427`. -/
def fp_mat_op (files : String → Option (List Char)) : List (List Char) → Cmd Unit :=
  calc1 intArg fun p r => do
    let z ← lift (pair (IntMod.mk' 0 p) (IntMod.mk' 1 p))
    matCmd IntMod.cops.tops modIO files z r
def fp_vec_op : List (List Char) → Cmd Unit :=
  calc1 intArg fun p r => do
    let z ← lift (pair (IntMod.mk' 0 p) (IntMod.mk' 1 p))
    vecCmd IntMod.cops.tops IntMod.cops.exp modIO z.1 r

/-- `/repo/cli/spiff/q_handlers.cpp:15-25`. -/
def q_mat_op (files : String → Option (List Char)) : List (List Char) → Cmd Unit := matCmd IntRat.cops.tops ratIO files (⟨0, 1⟩, ⟨1, 1⟩)
def q_vec_op : List (List Char) → Cmd Unit := vecCmd IntRat.cops.tops IntRat.exp ratIO ⟨0, 1⟩

/-- `/repo/cli/spiff/f2_polymod_handlers.cpp:420-457`. -/
def f2_pm_mat_op (files : String → Option (List Char)) : List (List Char) → Cmd Unit :=
  calc1 f2Arg fun m r => do
    let z ← lift (pair (F2Mod.mk' (F2P.ofInt 0) m) (F2Mod.mk' (F2P.ofInt 1) m))
    matCmd F2Mod.cops.tops f2ModIO files z r
def f2_pm_vec_op : List (List Char) → Cmd Unit :=
  calc1 f2Arg fun m r => do
    let z ← lift (pair (F2Mod.mk' (F2P.ofInt 0) m) (F2Mod.mk' (F2P.ofInt 1) m))
    vecCmd F2Mod.cops.tops F2Mod.exp f2ModIO z.1 r

/-- `/repo/cli/spiff/fp_polymod_handlers.cpp:204-241`, without usage function. -/
def fp_pm_mat_op (files : String → Option (List Char)) : List (List Char) → Cmd Unit :=
  fp_pm_calc fun m r => do
    let z ← lift (pair (fpPmPsub 0 m) (fpPmPsub 1 m))
    matCmd FpMod.cops.tops fpModIO files z r
def fp_pm_vecop : List (List Char) → Cmd Unit :=
  fp_pm_calc fun m r => do
    let z ← lift (pair (fpPmPsub 0 m) (fpPmPsub 1 m))
    vecCmd FpMod.cops.tops (CMod.exp IntMod.cops) fpModIO z.1 r

end Spffl.Cmd
