import Verif.Model.CmdCalc
import Verif.Model.EDet

/-!
# Commands of the command-line tool: matrices over rings that are not fields, and the other matrix calculators

The commands `z_mat_op`, `f2_p_mat_op`, `fp_p_mat_op`, `f2n_p_mat_op`, `fpn_p_mat_op`, and `f2n_pm_mat_op`, `f2n_pm_vec_op`,
`fpn_pm_mat_op`: reading the moduli, then `cmd_line_mat_parse` or `cmd_line_vec_parse`
(`/repo/spffl/cli_parser/cmd_line_matrix_ops.h:685-728`, `cmd_line_vector_ops.h:543-584`), as in Model/CmdCalc.lean.

The division by zero of `int` is undefined behaviour.
-/

namespace Spffl.Cmd
open Res Expr VText

/-- `int` as the element of a matrix. -/
def intTops : TOps Int where
  add := iadd
  sub := isub
  mul := imul
  div := idiv
  neg := ineg
  eq a b := ok (a == b)
  lt a b := ok (decide (a < b))
  dflt := 0

/-- The operators of a class of residues of polynomials; the default constructor makes two polynomials, of one coefficient `d` each. -/
def cmodTops {α : Type} (O : CoefOps α) (d : α) : TOps (CMod α) where
  add := CMod.add O
  sub := CMod.sub O
  mul := CMod.mul O
  div := CMod.div O
  neg := CMod.neg O
  eq := CMod.eq O
  lt := CMod.lt O
  dflt := ⟨⟨0, [d]⟩, ⟨0, [d]⟩⟩

/-- `/repo/spffl/polynomials/f2n_polymod_t.cpp:29-33, 68-119, 286-296`; `f2n_poly_t.cpp:17-22`. -/
def f2nModTops : TOps (CMod F2Mod) := cmodTops F2Mod.cops ⟨F2P.zero, F2P.one⟩

/-- `/repo/spffl/polynomials/fpn_polymod_t.cpp:29-33, 70-120`; `fpn_poly_t.cpp:17-22`. -/
def fpnModTops : TOps (CMod (CMod IntMod)) := cmodTops FpMod.cops FpMod.cops.dflt

/-- `/repo/cli/spiff/z_handlers.cpp:277-280`: `cmd_line_mat_parse<int>(argc - 1, argv + 1, 0, 1)`. -/
def z_mat_op (files : String → Option (List Char)) : List (List Char) → Cmd Unit := matCmd intTops intIO files (0, 1)

/-- `/repo/cli/spiff/f2_poly_handlers.cpp:451-456`. -/
def f2_p_mat_op (files : String → Option (List Char)) : List (List Char) → Cmd Unit :=
  matCmd F2P.edops.toTOps f2IO files (F2P.zero, F2P.one)

/-- `/repo/cli/spiff/fp_poly_handlers.cpp:63-80`. -/
def fp_p_mat_op (files : String → Option (List Char)) : List (List Char) → Cmd Unit :=
  calc1 intArg fun p r => do
    let z ← lift (pair (IntMod.mk' 0 p >>= CPoly.const IntMod.cops) (IntMod.mk' 1 p >>= CPoly.const IntMod.cops))
    matCmd (CPoly.edops IntMod.cops ⟨0, 1⟩).toTOps fpIO files z r

/-- `/repo/cli/spiff/f2n_poly_handlers.cpp:486-508`. -/
def f2n_p_mat_op (files : String → Option (List Char)) : List (List Char) → Cmd Unit :=
  calc1 f2Arg fun m r => do
    let z ← lift (pair (f2nPsub 0 m) (f2nPsub 1 m))
    matCmd (CPoly.edops F2Mod.cops ⟨F2P.zero, F2P.one⟩).toTOps f2nIO files z r

/-- `/repo/cli/spiff/fpn_poly_handlers.cpp:36-62`. -/
def fpn_p_mat_op (files : String → Option (List Char)) : List (List Char) → Cmd Unit :=
  calc2 fpPmArg fun m r => do
    let z ← lift (pair (fpnPsub 0 m) (fpnPsub 1 m))
    matCmd (CPoly.edops FpMod.cops FpMod.cops.dflt).toTOps fpnIO files z r

/-- `/repo/cli/spiff/f2n_polymod_handlers.cpp:393-444`. -/
def f2n_pm_mat_op (files : String → Option (List Char)) : List (List Char) → Cmd Unit :=
  calc2 f2nPmArg fun m r => do
    let z ← lift (pair (f2nPmPsub 0 m) (f2nPmPsub 1 m))
    matCmd f2nModTops f2nModIO files z r
def f2n_pm_vec_op : List (List Char) → Cmd Unit :=
  calc2 f2nPmArg fun m r => do
    let z ← lift (pair (f2nPmPsub 0 m) (f2nPmPsub 1 m))
    vecCmd f2nModTops (CMod.exp F2Mod.cops) f2nModIO z.1 r

/-- `/repo/cli/spiff/fpn_polymod_handlers.cpp:40-68`. -/
def fpn_pm_mat_op (files : String → Option (List Char)) : List (List Char) → Cmd Unit :=
  calc3 fpnPmArg fun m r => do
    let z ← lift (pair (fpnPmPsub 0 m) (fpnPmPsub 1 m))
    matCmd fpnModTops fpnModIO files z r

end Spffl.Cmd
