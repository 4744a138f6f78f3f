import Verif.Model.ExprInst2
import Verif.Model.BitText
import Verif.Model.LinAlg

/-!
# The calculators for matrices and vectors

The commands `*_mat_op` and `*_vec_op` of `spiff`: `cmd_line_mat_parse`, `/repo/spffl/cli_parser/cmd_line_matrix_ops.h:685-728`,
and `cmd_line_vec_parse`, `cmd_line_vector_ops.h:543-584`, with the operators of `tmatrix` and `tvector`.

Simplifications.  A literal is read into `mat_val = zero`, which fills the matrix of the literal before; reading uses only its
first entry, so the model reads into a matrix of one element.  The file system is a function from names to texts; the names `-`
and `@`, which mean the standard input, have no special role.  Values are lists: copies on the stack and in the saved contexts
are the same values.  For matrices this is what `tmatrix::operator=` does.  For vectors it holds as long as `tvector::operator=`
is not given a longer vector than the target has room for (C49).  It is, in expressions with vectors of different lengths: the
claims about expressions are for vectors of one length, and one case with another length is modelled with objects (`vecSumEq`).  What is printed is returned at the end.  The moduli are given as objects.
-/

namespace Spffl
open Res

namespace TMat
variable {α : Type} (O : TOps α)

/-- `check_inverse`, `/repo/spffl/containers/tmatrix.h:1403-1411`. -/
def check_inverse (A B : TMat α) : Res Unit := do
  let AB ← mul O A B
  let BA ← mul O B A
  let b ← is_I O AB
  if !b then throw
  else do
    let c ← is_I O BA
    if !c then throw else ok ()

/-- `check_kernel_basis`, `/repo/spffl/containers/tmatrix.h:1173-1193`. -/
def check_kernel_basis (A K : TMat α) : Res Unit := do
  let x ← A.get 0 0
  let y ← A.get 0 0
  let zero ← O.sub x y
  forUp 0 K.num_rows () fun i _ => do
    let r ← rd K.rows i
    let Av ← mulVec O A r
    let e ← TVec.eqScalar O Av zero
    if !e then throw else ok ()

end TMat

/-- `exp`, `/repo/spffl/containers/tvector.h:347-353`; `ex` is `exp` of the elements. -/
def TVec.exp {α : Type} (O : TOps α) (ex : α → Int → Res α) (v : TVec α) (n : Int) : Res (TVec α) :=
  TVec.tabulate O v.length fun i => do
    let a ← rd v i
    ex a n

namespace Expr
open VText

variable {α : Type}

/-! ### Matrices -/

/-- The methods of `tmatrix`.  The field `exp` is not used. -/
def matOps (O : TOps α) (zero one : α) : MOps (TMat α) α where
  neg := TMat.neg O
  add := TMat.add O
  sub := TMat.sub O
  mul := TMat.mul O
  exp _ _ := throw
  eq := TMat.eq O
  ne a b := do
    let r ← TMat.eq O a b
    ok (!r)
  expM a n := do
    let r ← TMat.exp O a n
    ok (if r.1 then r.2 else none)
  inverse a := do
    let r ← TMat.inverse O a
    ok (if r.1 then r.2 else none)
  check_inverse := TMat.check_inverse O
  kerbas a := TMat.get_kernel_basis O a zero one
  check_kerbas := TMat.check_kernel_basis O
  rr := TMat.row_reduce_below O
  rech := TMat.row_echelon_form O
  flip_horiz := TMat.flip_horiz O
  flip_horiz_vert := TMat.flip_horiz_vert O
  rrnz := TMat.get_rr_non_zero_rows O
  rechnz := TMat.get_rech_non_zero_rows O
  transpose := TMat.transpose O
  det := TMat.det O
  rank a := do
    let r ← TMat.get_rank O a
    ok r

/-- `load_from_file`, `/repo/spffl/containers/tmatrix.h:116-149`; a file that cannot be opened is `none`. -/
def loadMat (E : EltIO α) (files : String → Option (List Char)) (A : TMat α) (name : String) : Res (Option (TMat α)) :=
  match files name with
  | none => ok none
  | some cs => do
    let r ← readMat E (cs.length + 1) A cs
    ok (if r.2.fail then none else some r.1)

/-- A literal, `/repo/spffl/cli_parser/cmd_line_matrix_ops.h:259-280`. -/
def matScan (E : EltIO α) (files : String → Option (List Char)) (zero : α) (s : String) : Res (TMat α) := do
  let A : TMat α := ⟨1, 1, [[zero]]⟩
  let o ← if '[' ∈ s.toList then matBracket E (s.toList.length + 1) A s.toList else loadMat E files A s
  orThrow o

/-- What is printed of a result, `/repo/spffl/cli_parser/cmd_line_matrix_ops.h:704-720`. -/
def showMAtom (E : EltIO α) : MAtom (TMat α) α → Res (List Char)
  | .mat A => showMat E A
  | .scalar a => do
    let t ← E.print a
    ok (t ++ ['\n'])
  | .int n => ok (Scan.showInt n ++ ['\n'])

/-- `cmd_line_mat_parse`, `/repo/spffl/cli_parser/cmd_line_matrix_ops.h:685-728`, with what it prints. -/
def matOp (O : TOps α) (E : EltIO α) (files : String → Option (List Char)) (zero one : α) (argv : List String) :
    Res (List (List Char)) := do
  let out ← parse (matrix (matOps O zero one) (matScan E files zero) (fun s => Scan.readInt s.toList)) argv
  each (showMAtom E) out

/-! ### Vectors -/

/-- The methods of `tvector`. -/
def vecOps (O : TOps α) (ex : α → Int → Res α) : VOps (TVec α) where
  neg := TVec.neg O
  add := TVec.add O
  sub := TVec.sub O
  mul := TVec.cmul O
  exp := TVec.exp O ex
  eq := TVec.eq O
  ne a b := do
    let r ← TVec.eq O a b
    ok (!r)

/-- A literal, `/repo/spffl/cli_parser/cmd_line_vector_ops.h:193-221`; `vec_val = zero` first. -/
def vecScan (E : EltIO α) (zero : α) (s : String) : Res (TVec α) := do
  let o ← vecBracket E (s.toList.length + 1) [zero] s.toList
  orThrow o

/-- What is printed of a result, `/repo/spffl/cli_parser/cmd_line_vector_ops.h:562-577`. -/
def showVAtom (E : EltIO α) : MAtom (TVec α) α → Res (List Char)
  | .mat v => do
    let t ← showVec E v
    ok (t ++ ['\n'])
  | .scalar a => do
    let t ← E.print a
    ok (t ++ ['\n'])
  | .int n => ok (Scan.showInt n ++ ['\n'])

/-- `cmd_line_vec_parse`, `/repo/spffl/cli_parser/cmd_line_vector_ops.h:543-584`, with what it prints. -/
def vecOp (O : TOps α) (ex : α → Int → Res α) (E : EltIO α) (zero : α) (argv : List String) : Res (List (List Char)) := do
  let out ← parse (vector (vecOps O ex) (vecScan E zero) (fun s => Scan.readInt s.toList)) argv
  each (showVAtom E) out

/-- What happens to the vectors of the objects on the stack in `a + b == c` with the literals `a`, `b`, `c`: `push` and `pop`,
`/repo/spffl/containers/tstack.h:66-88`, copy with `operator=`; the stack has two slots that are empty at first.  The second of
them is used for `b`, and again for `c`. -/
def vecSumEq (O : TOps α) (a b c : List α) : Res (MAtom (TVec α) α) := do
  let slot0 ← VObj.assign O.dflt VObj.empty (VObj.ofList a)
  let slot1 ← VObj.assign O.dflt VObj.empty (VObj.ofList b)
  let B ← VObj.assign O.dflt VObj.empty slot1
  let A ← VObj.assign O.dflt VObj.empty slot0
  match A.value, B.value with
  | some x, some y => do
    let s ← TVec.add O x y
    let slot0 ← VObj.assign O.dflt slot0 (VObj.ofList s)
    let slot1 ← VObj.assign O.dflt slot1 (VObj.ofList c)
    let B ← VObj.assign O.dflt VObj.empty slot1
    let A ← VObj.assign O.dflt VObj.empty slot0
    match A.value, B.value with
    | some x, some y => do
      let r ← TVec.eq O x y
      ok (.int (if r then 1 else 0))
    | _, _ => ub
  | _, _ => ub

/-! ### Element types -/

/-- `bit_t`: `/repo/spffl/bits/bit_t.cpp:13-42`; `r0` is what is found in the uninitialised variable of `operator>>`.  (What is read
only depends on whether the bit that is read into is zero.) -/
def bitIO (r0 : Nat) : EltIO BitT where
  sub := BitT.tops.sub
  read z cs :=
    let r := BText.readBit r0 (z.residue != 0) cs
    ok (⟨if r.1 then 1 else 0⟩, r.2)
  print a := ok (BText.showBit (a.residue != 0))

/-- `f2_mat_op_main` and `f2_vec_op_main`, `/repo/cli/spiff/f2_handlers.cpp:41-51`. -/
def f2MatOp (r0 : Nat) (files : String → Option (List Char)) (argv : List String) : Res (List (List Char)) :=
  matOp BitT.tops (bitIO r0) files (BitT.ofInt 0) (BitT.ofInt 1) argv

def f2VecOp (r0 : Nat) (argv : List String) : Res (List (List Char)) :=
  vecOp BitT.tops BitT.exp (bitIO r0) (BitT.ofInt 0) argv

/-- `fp_mat_op_main` and `fp_vec_op_main`, `/repo/cli/spiff/fp_handlers.cpp:398-427`. -/
def fpMatOp (p : Int) (files : String → Option (List Char)) (argv : List String) : Res (List (List Char)) := do
  let zero ← IntMod.mk' 0 p
  let one ← IntMod.mk' 1 p
  matOp IntMod.cops.tops modIO files zero one argv

def fpVecOp (p : Int) (argv : List String) : Res (List (List Char)) := do
  let zero ← IntMod.mk' 0 p
  vecOp IntMod.cops.tops IntMod.cops.exp modIO zero argv

/-- `q_mat_op_main` and `q_vec_op_main`, `/repo/cli/spiff/q_handlers.cpp:15-25`. -/
def qMatOp (files : String → Option (List Char)) (argv : List String) : Res (List (List Char)) :=
  matOp IntRat.cops.tops ratIO files ⟨0, 1⟩ ⟨1, 1⟩ argv

def qVecOp (argv : List String) : Res (List (List Char)) :=
  vecOp IntRat.cops.tops IntRat.exp ratIO ⟨0, 1⟩ argv

/-- `f2_pm_mat_op_main` and `f2_pm_vec_op_main`, `/repo/cli/spiff/f2_polymod_handlers.cpp:420-457`. -/
def f2PmMatOp (m : F2P) (files : String → Option (List Char)) (argv : List String) : Res (List (List Char)) := do
  let zero ← F2Mod.mk' (F2P.ofInt 0) m
  let one ← F2Mod.mk' (F2P.ofInt 1) m
  matOp F2Mod.cops.tops f2ModIO files zero one argv

def f2PmVecOp (m : F2P) (argv : List String) : Res (List (List Char)) := do
  let zero ← F2Mod.mk' (F2P.ofInt 0) m
  vecOp F2Mod.cops.tops F2Mod.exp f2ModIO zero argv

/-- `fp_pm_mat_op_main` and `fp_pm_vec_op_main`, `/repo/cli/spiff/fp_polymod_handlers.cpp:204-241`, once the modulus is read. -/
def fpPmMatOp (m : CPoly IntMod) (files : String → Option (List Char)) (argv : List String) : Res (List (List Char)) := do
  let zero ← fpPmPsub 0 m
  let one ← fpPmPsub 1 m
  matOp FpMod.cops.tops fpModIO files zero one argv

def fpPmVecOp (m : CPoly IntMod) (argv : List String) : Res (List (List Char)) := do
  let zero ← fpPmPsub 0 m
  vecOp FpMod.cops.tops (CMod.exp IntMod.cops) fpModIO zero argv

end Expr
end Spffl
