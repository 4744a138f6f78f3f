import Verif.Model.CmdMat
import Verif.Model.PolyRatText
import Verif.Model.Random

/-!
# Commands of the command-line tool: random elements and random matrices

`*_random_main` and `*_mat_random_main` of `/repo/cli/spiff/f2_handlers.cpp`, `f2_poly_handlers.cpp`, `f2_polymod_handlers.cpp`,
`f2_polyrat_handlers.cpp`, `f2n_poly_handlers.cpp`, `f2n_polymod_handlers.cpp`, `fp_handlers.cpp`, `fp_poly_handlers.cpp` and
`fp_polymod_handlers.cpp`.

`src k` is what the k-th call of `get_random_int` returns.  Simplified: a matrix is built as the list of its rows, not element
by element in an array that is there before; that there may be no memory for it is not represented.
-/

namespace Spffl.Cmd
open Res Scan Random

section
variable {α : Type} (draw : Nat → Res (α × Nat)) (sh : α → Res (List Char))

/-- `for (int i = 0; i < count; i++) std::cout << draw() << std::endl;`, from the position `pos` of the source on. -/
def randLines : Nat → Nat → Cmd Unit
  | 0, _ => pure ()
  | k + 1, pos => do
    let a ← lift (draw pos)
    putLine sh a.1
    randLines k a.2

/-- `count`: 1, or the argument. -/
def randCount (cs : Option (List Char)) : Cmd Unit := do
  let count ← optArg 1 cs
  randLines draw sh count.toNat 0

/-- One row: `for (int j = 0; j < nc; j++) A[i][j] = draw();`. -/
def drawRow : Nat → Nat → Res (List α × Nat)
  | 0, pos => ok ([], pos)
  | k + 1, pos => do
    let a ← draw pos
    let r ← drawRow k a.2
    ok (a.1 :: r.1, r.2)

/-- `for (int i = 0; i < nr; i++)`. -/
def drawRows (nc : Nat) : Nat → Nat → Res (List (List α) × Nat)
  | 0, pos => ok ([], pos)
  | k + 1, pos => do
    let a ← drawRow draw nc pos
    let r ← drawRows nc k a.2
    ok (a.1 :: r.1, r.2)

/-- `sscanf` for both numbers, `tmatrix<T> A(nr, nc)` (`/repo/spffl/containers/tmatrix.h:35-50`), the loops and `std::cout << A`. -/
def randMat (E : VText.EltIO α) (nr nc : List Char) : Cmd Unit := do
  let nr ← intArg nr
  let nc ← intArg nc
  if nr ≤ 0 ∨ nc ≤ 0 then lift .throw
  else do
    let r ← lift (drawRows draw nc.toNat nr.toNat 0)
    put (VText.showMat E) ⟨nr.toNat, nc.toNat, r.1⟩

end

/-! ### F2 -/

/-- `get_random_int() & 1` as text. -/
def f2_draw (src : Src) (pos : Nat) : Res (Int × Nat) := ok (((src pos) &&& 1#32).toInt, pos + 1)

/-- `/repo/cli/spiff/f2_handlers.cpp:22-39`. -/
def f2_random (src : Src) : List (List Char) → Cmd Unit
  | [] => randCount (f2_draw src) (fun n => ok (showInt n)) none
  | [n] => randCount (f2_draw src) (fun n => ok (showInt n)) (some n)
  | _ => exit1

/-- `bit_t(get_random_uint32() & 1)`. -/
def bit_draw (src : Src) (pos : Nat) : Res (BitT × Nat) := ok (BitT.ofInt ((src pos) &&& 1#32).toInt, pos + 1)

/-- `/repo/cli/spiff/f2_handlers.cpp:119-140`. -/
def f2_mat_random (src : Src) (r0 : Nat) : List (List Char) → Cmd Unit
  | [nr, nc] => randMat (bit_draw src) (Expr.bitIO r0) nr nc
  | _ => exit1

/-! ### Polynomials over F2, residues and quotients of them -/

/-- `/repo/cli/spiff/f2_poly_handlers.cpp:408-428`. -/
def f2_p_random (src : Src) : List (List Char) → Cmd Unit
  | deg :: r => do
    if 1 < r.length then exit1
    else do
      let deg ← intArg deg
      randCount (f2_poly_random src deg) F2P.print r[0]?
  | _ => exit1

/-- `/repo/cli/spiff/f2_polymod_handlers.cpp:392-413`. -/
def f2_pm_random (src : Src) : List (List Char) → Cmd Unit
  | m :: r => do
    if 1 < r.length then exit1
    else do
      let m ← f2Arg m
      randCount (f2_polymod_random src m) PText.f2ModShow r[0]?
  | _ => exit1

/-- `/repo/cli/spiff/f2_polymod_handlers.cpp:616-641`. -/
def f2_pm_mat_random (src : Src) : List (List Char) → Cmd Unit
  | [m, nr, nc] => do
    let m ← f2Arg m
    randMat (f2_polymod_random src m) VText.f2ModIO nr nc
  | _ => exit1

/-- `/repo/cli/spiff/f2_polyrat_handlers.cpp:39-44` and `86-91`. -/
def f2_polyrat_draw (src : Src) (deg : Int) (pos : Nat) : Res (PRat F2P × Nat) := do
  let n ← f2_poly_random src deg pos
  let d ← f2_poly_random src deg n.2
  let z ← F2P.eq d.1 (F2P.ofInt 0)
  let q ← PRat.mk2 F2P.rops n.1 (if z then F2P.ofInt 1 else d.1)
  ok (q, d.2)

/-- `/repo/cli/spiff/f2_polyrat_handlers.cpp:21-49`. -/
def f2_pr_random (src : Src) : List (List Char) → Cmd Unit
  | deg :: r => do
    if 1 < r.length then exit1
    else do
      let deg ← intArg deg
      randCount (f2_polyrat_draw src deg) (PRat.shown F2P.rtext) r[0]?
  | _ => exit1

/-- `/repo/cli/spiff/f2_polyrat_handlers.cpp:64-97`. -/
def f2_pr_mat_random (src : Src) : List (List Char) → Cmd Unit
  | [deg, nr, nc] => do
    let deg ← intArg deg
    randMat (f2_polyrat_draw src deg) (PRat.io F2P.rops F2P.rtext) nr nc
    out ['\n']
  | _ => exit1

/-! ### F2^n -/

/-- `/repo/cli/spiff/f2n_poly_handlers.cpp:409-433`. -/
def f2n_p_random (src : Src) : List (List Char) → Cmd Unit
  | m :: deg :: r => do
    if 1 < r.length then exit1
    else do
      let m ← f2Arg m
      let deg ← intArg deg
      randCount (f2n_poly_random src m deg) PText.f2nShow r[0]?
  | _ => exit1

/-- `/repo/cli/spiff/f2n_polymod_handlers.cpp:366-391`. -/
def f2n_pm_random (src : Src) : List (List Char) → Cmd Unit
  | im :: om :: r => do
    if 1 < r.length then exit1
    else do
      let im ← f2Arg im
      let om ← readArg (f2nTool im).read om
      randCount (f2n_polymod_random src im om) PText.f2nModShow r[0]?
  | _ => exit1

/-- `/repo/cli/spiff/f2n_polymod_handlers.cpp:450-480`. -/
def f2n_pm_mat_random (src : Src) : List (List Char) → Cmd Unit
  | [im, om, nr, nc] => do
    let im ← f2Arg im
    let om ← readArg (f2nTool im).read om
    randMat (f2n_polymod_random src im om) VText.f2nModIO nr nc
    out ['\n']
  | _ => exit1

/-! ### Fp -/

/-- `/repo/cli/spiff/fp_handlers.cpp:371-391`. -/
def fp_random (src : Src) : List (List Char) → Cmd Unit
  | m :: r => do
    if 1 < r.length then exit1
    else do
      let m ← intArg m
      randCount (intmod_random src m) showMod r[0]?
  | _ => exit1

/-- `/repo/cli/spiff/fp_handlers.cpp:504-528`. -/
def fp_mat_random (src : Src) : List (List Char) → Cmd Unit
  | [p, nr, nc] => do
    let p ← intArg p
    randMat (intmod_random src p) VText.modIO nr nc
  | _ => exit1

/-- `/repo/cli/spiff/fp_poly_handlers.cpp:438-461`. -/
def fp_p_random (src : Src) : List (List Char) → Cmd Unit
  | p :: deg :: r => do
    if 1 < r.length then exit1
    else do
      let p ← intArg p
      let deg ← intArg deg
      randCount (fp_poly_random src p deg) PText.fpShow r[0]?
  | _ => exit1

/-- `/repo/cli/spiff/fp_polymod_handlers.cpp:452-476`. -/
def fp_pm_random (src : Src) : List (List Char) → Cmd Unit
  | p :: m :: r => do
    if 1 < r.length then exit1
    else do
      let m ← fpPmArg p m
      randCount (fp_polymod_random src m) PText.fpModShow r[0]?
  | _ => exit1

/-- `/repo/cli/spiff/fp_polymod_handlers.cpp:300-329`. -/
def fp_pm_mat_random (src : Src) : List (List Char) → Cmd Unit
  | [p, m, nr, nc] => do
    let m ← fpPmArg p m
    randMat (fp_polymod_random src m) VText.fpModIO nr nc
  | _ => exit1

end Spffl.Cmd
