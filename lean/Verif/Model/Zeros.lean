/-
Model of the counting of zeros of a polynomial in several variables by f2apolist (pre-cmake/apps/agff/agff.cpp).
Reading the polynomial and printing are not modelled.
-/
import Verif.Model.MvPoly
import Verif.Model.Lists
import Verif.Model.CoefInst

namespace Spffl
open Res
namespace Zeros
open MvPoly Lists

/-- agff.cpp:1073-1092: the coefficients 0 and 1 of F2 become those of F2[x]/m; any other ends the program. -/
def embed (zero one : F2Mod) : List (Mono F2Mod) → Res (List (Mono F2Mod))
  | [] => ok []
  | t :: ts => do
    let b0 ← F2Mod.eqInt t.coeff 0
    let c ← if b0 then ok zero else do
      let b1 ← F2Mod.eqInt t.coeff 1
      if b1 then ok one else throw
    let r ← embed zero one ts
    ok (⟨c, t.expts⟩ :: r)

/-- agff.cpp:327-334 and 344-351: the number of rows at which the polynomial is zero. -/
def count (f : List (Mono F2Mod)) (A : TMat F2Mod) (zero : F2Mod) : Res Int :=
  forUp 0 A.num_rows 0 fun i num => do
    let x ← TMat.row A i
    let fx ← eval F2Mod.cops f x
    let b ← F2Mod.eq fx zero
    if b then iadd num 1 else ok num

/-- agff.cpp:301-304 and 324-334: the polynomial over F2 and the reductor are given. -/
def affine (tm : TrimMask) (f : List (Mono F2Mod)) (m : F2P) (nv : Int) : Res Int := do
  let zero ← F2Mod.prime_subfield_element 0 m
  let one ← F2Mod.prime_subfield_element 1 m
  let f ← embed zero one f
  let A ← f2_polymod_An_list tm m nv
  count f A zero

/-- agff.cpp:301-305 and 341-351. -/
def projective (tm : TrimMask) (f : List (Mono F2Mod)) (m : F2P) (nv : Int) : Res Int := do
  let zero ← F2Mod.prime_subfield_element 0 m
  let one ← F2Mod.prime_subfield_element 1 m
  let f ← embed zero one f
  let F ← homogenize f
  let A ← f2_polymod_Pn_list tm m nv
  count F A zero

end Zeros
end Spffl
