/-
Model of the Frobenius orbits of points of the application agff (pre-cmake/apps/agff/agff.cpp): `F2_frob` and `F2_frobit`, with the
matrices and vectors of spffl/containers.
-/
import Verif.Model.VecAlias
import Verif.Model.CoefInst

namespace Spffl
open Res
namespace FrobOrbit

/-- agff.cpp:1112-1120: the square of every coordinate, in a copy of the vector. -/
def frob (v : TVec F2Mod) : Res (TVec F2Mod) :=
  forUp 0 v.length v fun i s => TVec.put s i (do
    let x ← TVec.get v i
    F2Mod.exp x 2)

/-- `m[i] = <vector>`; `m[i]` is checked (tmatrix.h:390-398). -/
def crow (A : TMat F2Mod) (i : Nat) (r : Res (TVec F2Mod)) : Res (TMat F2Mod) := do
  let w ← r
  if i < A.num_rows then TMat.setRow A i (ok w) else throw

/-- agff.cpp:1132-1138: the loop from `j`, `k` rounds left, with the matrix and `point_degree`. -/
def frobitLoop (v : TVec F2Mod) : Nat → Nat → TMat F2Mod → Int → Res (TMat F2Mod × Int)
  | 0, _, A, d => ok (A, d)
  | k + 1, j, A, d => do
    let prev ← TMat.row A (j - 1)
    let A' ← crow A j (frob prev)
    let w ← TMat.row A' j
    let b ← TVec.eq F2Mod.cops.tops w v
    if b then ok (A', d) else frobitLoop v k (j + 1) A' (d + 1)

/-- agff.cpp:1123-1141. -/
def frobit (v : TVec F2Mod) (n : Int) : Res (TMat F2Mod) := do
  let A ← TMat.alloc F2Mod.cops.tops n v.length
  let A ← crow A 0 (ok v)
  let r ← frobitLoop v (n.toNat - 1) 1 A 1
  TMat.trim_num_rows r.1 r.2

end FrobOrbit
end Spffl
