/-
Model of the comparisons with a scalar, the differences and the self-checks of bit_matrix_t (spffl/bits/bit_matrix_t.cpp).
The self-checks of tmatrix are in Model/ExprInst3.lean.
-/
import Verif.Model.BitMatrix

namespace Spffl
open Res
namespace BM

/-- bit_matrix_t.cpp:171-178, rows from `i`, `k` rows left; `rows[i] != e` is bit_vector_t.cpp:368-370. -/
def eqScalarLoop (A : BM) (b : Bool) : Nat → Nat → Res Bool
  | 0, _ => ok true
  | k + 1, i => do
    let x ← rd A.rows i
    let e ← BV.eqScalar x b
    if !e then ok false else eqScalarLoop A b k (i + 1)

/-- bit_matrix_t.cpp:171-178. -/
def eqScalar (A : BM) (b : Bool) : Res Bool := eqScalarLoop A b A.num_rows 0

/-- bit_matrix_t.cpp:314-328. -/
def sub (A B : BM) : Res BM :=
  if A.num_rows ≠ B.num_rows ∨ A.num_cols ≠ B.num_cols then throw
  else do
    let rv ← alloc A.num_rows A.num_cols
    let rs ← forUp 0 A.num_rows rv.rows fun i rs => do
      let x ← rd A.rows i
      let y ← rd B.rows i
      let z ← BV.sub x y
      assignRow rs i z
    ok { rv with rows := rs }

/-- bit_matrix_t.cpp:331-333: the result is copied. -/
def neg (A : BM) : Res BM := copy A

/-- bit_matrix_t.cpp:836-856. -/
def check_kernel_basis (tm : TrimMask) (A K : BM) : Res Unit :=
  forUp 0 K.num_rows () fun i _ => do
    let r ← rd K.rows i
    let Av ← mulVec tm A r
    let e ← BV.eqScalar Av false
    if !e then throw else ok ()

/-- bit_matrix_t.cpp:927-935. -/
def check_inverse (tm : TrimMask) (A B : BM) : Res Unit := do
  let AB ← mul tm A B
  let BA ← mul tm B A
  let b ← is_I AB
  if !b then throw
  else do
    let c ← is_I BA
    if !c then throw else ok ()

end BM
end Spffl
