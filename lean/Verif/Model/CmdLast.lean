import Verif.Model.CmdCalc
import Verif.Model.CmdMat
import Verif.Model.Diag

/-!
# The calculator for polynomials over Q, and the command that tests matrices for diagonalizability

`/repo/cli/spiff/q_handlers.cpp:32-37`, `/repo/cli/spiff/f2_polymod_handlers.cpp:526-563`.
-/

namespace Spffl.Cmd
open Res Scan VText Expr

/-! ### q_p_op -/

/-- `q_poly_t`: `/repo/spffl/polynomials/q_poly_t.cpp:656-711`.  An object left pointing to deleted memory deletes it again. -/
def qpIO : EltIO (CPoly IntRat) where
  sub := CPoly.sub IntRat.cops
  read z cs := PText.qExtract z cs >>= fun r =>
    match r.1 with
    | .dangling => ub
    | .refused p => ok (p, r.2)
    | .val p => ok (p, r.2)
  print := PText.qShow

/-- `/repo/cli/spiff/q_handlers.cpp:32-37`. -/
def q_p_op (r : List (List Char)) : Cmd Unit := do
  let z ← lift (pair (IntRat.ofInt 0 >>= CPoly.const IntRat.cops) (IntRat.ofInt 1 >>= CPoly.const IntRat.cops))
  scalarCmd (cpolyOps IntRat.cops) qpIO z r

/-! ### f2_pm_mat_diagonalizable

`f2_polymod_matrix_is_diagonalizable` (Model/Diag.lean) with what it prints: its constant `verbose` is 1. -/

/-- `/repo/spffl/linalg/f2_polymod_linear_algebra.cpp:126-132`. -/
def degReport (fi : FacInfo (CPoly F2Mod)) : Cmd Int :=
  (List.range fi.num_distinct).foldlM (fun (deglcm : Int) (i : Nat) => do
    let factor ← lift (fi.get_ith_factor i)
    out "  factor = ".toList
    put PText.f2nShow factor
    out (", deg = ".toList ++ showInt factor.degree ++ ['\n'])
    lift (int_lcm deglcm factor.degree)) 1

/-- `/repo/spffl/linalg/f2_polymod_linear_algebra.cpp:211-227`. -/
def multReport (fi : FacInfo (CPoly F2Mod)) (A : TMat F2Mod) (evs : TVec F2Mod) (nev : Nat) (rv : Bool) : Cmd Bool :=
  (List.range nev).foldlM (fun (rv : Bool) (i : Nat) => do
    let ev ← lift (TVec.get evs i)
    let A_tI ← lift (TMat.subScalar F2Mod.cops.tops A ev)
    let rank ← lift (TMat.get_rank F2Mod.cops.tops A_tI)
    let nullity ← lift (isub A.num_rows rank)
    let multiplicity ← lift (fi.get_ith_count i)
    out "Eigenvalue ".toList
    put PText.f2ModShow ev
    out (" multiplicity ".toList ++ showInt multiplicity ++ " nullity ".toList ++ showInt nullity ++ "\nA - ".toList)
    put PText.f2ModShow ev
    out " * I =\n".toList
    putLine (showMat f2ModIO) A_tI
    pure (if nullity ≠ multiplicity then false else rv)) rv

/-- `/repo/spffl/linalg/f2_polymod_linear_algebra.cpp:185-254`. -/
def finishReport (ext : F2P) (chpol : CPoly F2Mod) (A : TMat F2Mod) : Cmd (Bool × F2P × TVec F2Mod) := do
  let fi ← lift (F2nP.factor chpol)
  let nev ← lift (Diag.countLinear fi)
  let s ← lift (Diag.eigenvalues fi nev)
  let rv ← multReport fi A s.2 nev s.1
  pure (rv, ext, s.2)

/-- `/repo/spffl/linalg/f2_polymod_linear_algebra.cpp:149-153`. -/
def modReport (base : F2P) (degree : Int) (ext : F2P) : Cmd Unit := do
  out "Base modulus = ".toList
  put F2P.print base
  out ("\nExtension degree (over F2) = ".toList ++ showInt degree ++ "\nExtension modulus = ".toList)
  put F2P.print ext
  out ['\n']

/-- `/repo/spffl/linalg/f2_polymod_linear_algebra.cpp:83-255`. -/
def diagReport (tm : TrimMask) (qs : List (F2Mod × Nat) → List (F2Mod × Nat)) (vs : List F2Mod → List F2Mod) (A : TMat F2Mod) :
    Cmd (Bool × F2P × TVec F2Mod) := do
  out "\nf2_polymod diagonalizable input =\n".toList
  putLine (showMat f2ModIO) A
  let chpol ← lift (LinAlg.f2n_char_poly A)
  out "chpoly = ".toList
  putLine PText.f2nShow chpol
  let base ← lift (F2nP.factor chpol)
  out "factors = ".toList
  putFac PText.f2nShow base
  out ['\n']
  let deglcm ← degReport base
  out ("LCM of degrees = ".toList ++ showInt deglcm ++ ['\n'])
  let a ← lift (TMat.cget A 0 0)
  let base_degree ← lift (F2P.find_degree a.modulus)
  let ext_degree ← lift (imul deglcm base_degree)
  if deglcm = 1 then do
    modReport a.modulus ext_degree a.modulus
    finishReport a.modulus chpol A
  else do
    let ext ← lift (F2P.find_irreducible tm ext_degree)
    modReport a.modulus ext_degree ext
    let g ← lift (F2U.find_generator tm a.modulus)
    match g with
    | none => lift .throw
    | some base_g => do
      let g ← lift (Convert.prep vs base_g ext)
      match g with
      | none => lift .throw
      | some ext_g => do
        let chpol ← lift (Convert.poly qs base_g ext_g chpol)
        let A ← lift (Convert.matrix qs base_g ext_g A)
        finishReport ext chpol A

/-- `/repo/cli/spiff/f2_polymod_handlers.cpp:546-560`. -/
def diagPrint (tm : TrimMask) (qs : List (F2Mod × Nat) → List (F2Mod × Nat)) (vs : List F2Mod → List F2Mod) (A : TMat F2Mod) : Cmd Unit := do
  let r ← diagReport tm qs vs A
  out (if r.1 then "Diagonalizable.\n".toList else "Non-diagonalizable.\n".toList)
  out "\nSplitter modulus: ".toList
  put F2P.print r.2.1
  out "\nEigenvalues:\n".toList
  (List.range r.2.2.length).forM fun i => do
    let e ← lift (TVec.get r.2.2 i)
    out "  ".toList
    putLine PText.f2ModShow e

/-- `/repo/cli/spiff/f2_polymod_handlers.cpp:531-563`. -/
def f2_pm_mat_diagonalizable (tm : TrimMask) (qs : List (F2Mod × Nat) → List (F2Mod × Nat)) (vs : List F2Mod → List F2Mod)
    (files : List Char → Option (List Char)) (stdin : List Char) : List (List Char) → Cmd Unit
  | [m, name] => do
    let m ← f2Arg m
    let zero ← lift (F2Mod.mk' (F2P.ofInt 0) m)
    let r ← loadArg (loadM f2ModIO files (.ofChars stdin) ⟨1, 1, [[zero]]⟩ name)
    diagPrint tm qs vs r.1
  | _ => exit1

end Spffl.Cmd
