/-
Model of the in-place operators of tvector with arguments that are part of the vector itself, of `find_row`, and of the comparison of a
matrix with a scalar (spffl/containers/tvector.h, tmatrix.h).

The scalar is passed by reference.  If it is an element of the vector, it is read again in every round and changes when its own
turn comes.  `x *= y` and `x /= y` of the elements assign `x * y` and `x / y` (e.g. intmod_t.cpp:120-129).
-/
import Verif.Model.TMatrix

namespace Spffl
open Res

namespace TVec
variable {α : Type} (O : TOps α)

/-- tvector.h:375-385: `v *= v[k]` and `v.mult_by(v[k])`; `v[k]` is checked first (tvector.h:235-243). -/
def mult_by_own (v : TVec α) (k : Nat) : Res (TVec α) := do
  let _ ← get v k
  forUp 0 v.length v fun i s => store s i (do
    let x ← rd s i
    let e ← rd s k
    O.mul x e)

/-- tvector.h:393-398: `v /= v[k]`. -/
def div_by_own (v : TVec α) (k : Nat) : Res (TVec α) := do
  let _ ← get v k
  forUp 0 v.length v fun i s => store s i (do
    let x ← rd s i
    let e ← rd s k
    O.div x e)

/-- tvector.h:386-392: `v *= that`, componentwise. -/
def cmul_assign (v that : TVec α) : Res (TVec α) := do
  check_equal_lengths v that
  forUp 0 v.length v fun i s => store s i (do
    let x ← rd s i
    let y ← rd that i
    O.mul x y)

/-- tvector.h:386-392: `v *= v`. -/
def cmul_assign_self (v : TVec α) : Res (TVec α) := do
  check_equal_lengths v v
  forUp 0 v.length v fun i s => store s i (do
    let x ← rd s i
    let y ← rd s i
    O.mul x y)

end TVec

namespace TMat
variable {α : Type} (O : TOps α)

/-- The loop of tmatrix.h:757-762 from row `i`, `k` rows left; `none` is the return value `false`, where `row_index` is not set. -/
def findRowLoop (A : TMat α) (v : TVec α) : Nat → Nat → Res (Option Nat)
  | 0, _ => ok none
  | k + 1, i => do
    let r ← rd A.rows i
    let b ← TVec.eq O r v
    if b then ok (some i) else findRowLoop A v k (i + 1)

/-- tmatrix.h:756-764. -/
def find_row (A : TMat α) (v : TVec α) : Res (Option Nat) := findRowLoop O A v A.num_rows 0

/-- The loop of tmatrix.h:373-377 from row `i`, `k` rows left. -/
def eqScalarLoop (A : TMat α) (e : α) : Nat → Nat → Res Bool
  | 0, _ => ok true
  | k + 1, i => do
    let r ← rd A.rows i
    let b ← TVec.eqScalar O r e
    if !b then ok false else eqScalarLoop A e k (i + 1)

/-- tmatrix.h:372-379. -/
def eqScalar (A : TMat α) (e : α) : Res Bool := eqScalarLoop O A e A.num_rows 0

end TMat
end Spffl
