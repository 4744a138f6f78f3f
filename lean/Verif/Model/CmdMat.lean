import Verif.Model.CmdPm
import Verif.Model.ExprInst3
import Verif.Model.LinAlg

/-!
# Commands on matrices

The order of a matrix, characteristic polynomials and linear systems: `/repo/cli/spiff/f2_handlers.cpp:53-113`,
`fp_handlers.cpp:429-500`, `f2_polymod_handlers.cpp:459-520`, `553-594` and `fp_polymod_handlers.cpp:243-293`.

`stdin` is what is on standard input, `files` what is in the files; a file that cannot be opened is `none`.  What goes to
standard error is not shown.
-/

namespace Spffl.Cmd
open Res Scan VText
open Expr (bitIO fpPmPsub)

section
variable {α : Type} (O : TOps α) (E : EltIO α)

/-! ### Orders -/

/-- `for (order = 1;; order++)`, `/repo/cli/spiff/f2_handlers.cpp:97-103`, `fp_handlers.cpp:484-490`,
`f2_polymod_handlers.cpp:579-585`, `fp_polymod_handlers.cpp:278-284`, in `k` rounds; `*=` is `tmatrix.h:681-684`. -/
def matOrdLoop (A I : TMat α) : Nat → Int → TMat α → Cmd Unit
  | 0, _, _ => ⟨.timeout⟩
  | k + 1, order, Apower => do
    let e ← lift (TMat.eq O Apower I)
    if e then outLine (showInt order)
    else do
      let Apower ← lift (TMat.mul O Apower A)
      let order ← lift (iadd order 1)
      matOrdLoop A I k order Apower

/-- From `A = zero` on, `/repo/cli/spiff/f2_handlers.cpp:86-107`, `fp_handlers.cpp:473-494`, `f2_polymod_handlers.cpp:568-589`,
`fp_polymod_handlers.cpp:266-288`.  That standard input could not be read is not checked. -/
def matOrd (k : Nat) (zero one : α) (stdin : List Char) : Cmd Unit := do
  let r ← lift (readMat E (stdin.length + 1) ⟨1, 1, [[zero]]⟩ stdin)
  let d ← lift (TMat.det O r.1)
  let e ← lift (O.eq d zero)
  if e then outLine ['0']
  else do
    let I ← lift (TMat.make_I r.1 zero one)
    matOrdLoop O r.1 I k 1 r.1

/-! ### Files -/

/-- `-` and `@` are standard input. -/
def isStdin (name : List Char) : Bool := name = ['-'] || name = ['@']

/-- `load_from_file`, `/repo/spffl/containers/tmatrix.h:116-146`: the matrix, or `none` for `false`, and standard input afterwards.
Nothing is read from a stream that is at its end or has failed. -/
def loadM (files : List Char → Option (List Char)) (cin : IStream) (A : TMat α) (name : List Char) : Res (Option (TMat α) × IStream) :=
  if isStdin name then
    if cin.eof || cin.fail then ok (none, { cin with fail := true })
    else do
      let r ← readMat E (cin.cs.length + 1) A cin.cs
      ok (if r.2.fail then none else some r.1, r.2)
  else
    match files name with
    | none => ok (none, cin)
    | some cs => do
      let r ← readMat E (cs.length + 1) A cs
      ok (if r.2.fail then none else some r.1, cin)

/-- `load_from_file`, `/repo/spffl/containers/tvector.h:171-200`. -/
def loadV (files : List Char → Option (List Char)) (cin : IStream) (v : TVec α) (name : List Char) : Res (Option (TVec α) × IStream) :=
  if isStdin name then
    if cin.eof || cin.fail then ok (none, { cin with fail := true })
    else do
      let r ← readVecLine E (cin.cs.length + 1) v cin.cs
      ok (if r.2.fail then none else some r.1, r.2)
  else
    match files name with
    | none => ok (none, cin)
    | some cs => do
      let r ← readVecLine E (cs.length + 1) v cs
      ok (if r.2.fail then none else some r.1, cin)

/-- `if (!A.load_from_file(...)) pusage(...)`. -/
def loadArg {β : Type} (r : Res (Option β × IStream)) : Cmd (β × IStream) := do
  match ← lift r with
  | (none, _) => exit1
  | (some a, s) => pure (a, s)

/-- Characteristic polynomials, `/repo/cli/spiff/f2_handlers.cpp:64-68`, `fp_handlers.cpp:446-452`,
`f2_polymod_handlers.cpp:512-518`. -/
def matChPol {β : Type} (pol : TMat α → Res β) (sh : β → Res (List Char)) (zero : α) (files : List Char → Option (List Char)) (stdin : List Char)
    (name : List Char) : Cmd Unit := do
  let r ← loadArg (loadM E files (.ofChars stdin) ⟨1, 1, [[zero]]⟩ name)
  let p ← lift (pol r.1)
  putLine sh p

/-- A linear system, `/repo/cli/spiff/f2_polymod_handlers.cpp:479-495`: the value is the one returned. -/
def matSolve (zero : α) (files : List Char → Option (List Char)) (stdin : List Char) (nameA nameb : List Char) : Cmd Int := do
  let A ← loadArg (loadM E files (.ofChars stdin) ⟨1, 1, [[zero]]⟩ nameA)
  let b ← loadArg (loadV E files A.2 [zero] nameb)
  let r ← lift (TMat.solve_unique O A.1 .empty b.1)
  if r.1 then
    match r.2.value with
    | none => ⟨.ub⟩
    | some x => do
      putLine (showVec E) x
      pure 0
  else pure 1

end

/-! ### The commands -/

/-- `/repo/cli/spiff/f2_handlers.cpp:78-111`; `r0` is what is in the uninitialised variable of `operator>>` of `bit_t`. -/
def f2_mat_ord (r0 k : Nat) (stdin : List Char) : List (List Char) → Cmd Unit
  | [] => matOrd BitT.tops (bitIO r0) k (BitT.ofInt 0) (BitT.ofInt 1) stdin
  | _ => exit1

/-- `/repo/cli/spiff/fp_handlers.cpp:461-500`. -/
def fp_mat_ord (k : Nat) (stdin : List Char) : List (List Char) → Cmd Unit
  | [p] => do
    let p ← intArg p
    let zero ← lift (IntMod.mk' 0 p)
    let one ← lift (IntMod.mk' 1 p)
    matOrd IntMod.cops.tops modIO k zero one stdin
  | _ => exit1

/-- `/repo/cli/spiff/f2_polymod_handlers.cpp:553-594`. -/
def f2_pm_mat_ord (k : Nat) (stdin : List Char) : List (List Char) → Cmd Unit
  | [m] => do
    let m ← f2Arg m
    let zero ← lift (F2Mod.mk' (F2P.ofInt 0) m)
    let one ← lift (F2Mod.mk' (F2P.ofInt 1) m)
    matOrd F2Mod.cops.tops f2ModIO k zero one stdin
  | _ => exit1

/-- `/repo/cli/spiff/fp_polymod_handlers.cpp:249-293`, once there are enough arguments. -/
def fp_pm_mat_ord_from (k : Nat) (stdin p m : List Char) : Cmd Unit := do
  let p ← intArg p
  let m ← readArg (fpTool p).read m
  let zero ← lift (fpPmPsub 0 m)
  let one ← lift (fpPmPsub 1 m)
  matOrd FpMod.cops.tops fpModIO k zero one stdin

/-- `/repo/cli/spiff/fp_polymod_handlers.cpp:249-293`.  A third argument is not looked at. -/
def fp_pm_mat_ord (k : Nat) (stdin : List Char) : List (List Char) → Cmd Unit
  | [p, m] => fp_pm_mat_ord_from k stdin p m
  | [p, m, _] => fp_pm_mat_ord_from k stdin p m
  | _ => exit1

/-- `/repo/cli/spiff/f2_handlers.cpp:58-71`. -/
def f2_mat_ch_pol (r0 : Nat) (files : List Char → Option (List Char)) (stdin : List Char) : List (List Char) → Cmd Unit
  | [name] => matChPol (bitIO r0) LinAlg.f2_char_poly F2P.print (BitT.ofInt 0) files stdin name
  | _ => exit1

/-- `/repo/cli/spiff/fp_handlers.cpp:434-454`. -/
def fp_mat_ch_pol (files : List Char → Option (List Char)) (stdin : List Char) : List (List Char) → Cmd Unit
  | [p, name] => do
    let p ← intArg p
    let zero ← lift (IntMod.mk' 0 p)
    matChPol modIO LinAlg.fp_char_poly PText.fpShow zero files stdin name
  | _ => exit1

/-- `/repo/cli/spiff/f2_polymod_handlers.cpp:502-521`. -/
def f2_pm_mat_ch_pol (files : List Char → Option (List Char)) (stdin : List Char) : List (List Char) → Cmd Unit
  | [m, name] => do
    let m ← f2Arg m
    let zero ← lift (F2Mod.mk' (F2P.ofInt 0) m)
    matChPol f2ModIO LinAlg.f2n_char_poly PText.f2nShow zero files stdin name
  | _ => exit1

/-- `/repo/cli/spiff/f2_polymod_handlers.cpp:465-496`, where `m.prime_subfield_element(i)` is the polynomial `i`,
`/repo/spffl/polynomials/f2_poly_t.cpp:82-84`. -/
def f2_pm_mat_solve (files : List Char → Option (List Char)) (stdin : List Char) : List (List Char) → Cmd Int
  | [m, A, b] => do
    let m ← f2Arg m
    let zero ← lift (F2Mod.mk' (F2P.ofInt 0) m)
    let _ ← lift (F2Mod.mk' (F2P.ofInt 1) m)
    matSolve F2Mod.cops.tops f2ModIO zero files stdin A b
  | _ => exit1

end Spffl.Cmd
