/-
Model of `f2_polymod_matrix_is_diagonalizable` (spffl/linalg/f2_polymod_linear_algebra.cpp:83-255).

The constants `verbose` and `allow_field_extension` are 1 there.  What is printed to the standard output is not
modelled.  The reference parameters are the second and third component of the result.  `qs`, `vs` are the calls of
`qsort` (Model/Units.lean, Model/Convert.lean), `tm` the uninitialized masks of Model/F2Factor.lean.
-/
import Verif.Model.Convert
import Verif.Model.LinAlg
import Verif.Model.F2Factor

namespace Spffl
open Res
namespace Diag

/-- f2_polymod_linear_algebra.cpp:126-132. -/
def degLcm (fi : FacInfo (CPoly F2Mod)) : Res Int :=
  forUp 0 fi.num_distinct (1 : Int) fun i deglcm => do
    let factor ← fi.get_ith_factor i
    int_lcm deglcm factor.degree

/-- f2_polymod_linear_algebra.cpp:190-197. -/
def countLinear (fi : FacInfo (CPoly F2Mod)) : Res Nat :=
  forUp 0 fi.num_distinct 0 fun i nev => do
    let factor ← fi.get_ith_factor i
    ok (if factor.degree = 1 then nev + 1 else nev)

/-- f2_polymod_linear_algebra.cpp:199-209. -/
def eigenvalues (fi : FacInfo (CPoly F2Mod)) (nev : Nat) : Res (Bool × TVec F2Mod) := do
  let evs ← TVec.alloc F2Mod.cops.tops nev
  forUp 0 nev (true, evs) fun i s => do
    let factor ← fi.get_ith_factor i
    if factor.degree ≠ 1 then ok (false, s.2)
    else do
      let evs ← TVec.put s.2 i (CPoly.get_coeff F2Mod.cops factor 0)
      ok (s.1, evs)

/-- f2_polymod_linear_algebra.cpp:212-221. -/
def multiplicities (fi : FacInfo (CPoly F2Mod)) (A : TMat F2Mod) (evs : TVec F2Mod) (nev : Nat) (rv : Bool) : Res Bool :=
  forUp 0 nev rv fun i rv => do
    let ev ← TVec.get evs i
    let A_tI ← TMat.subScalar F2Mod.cops.tops A ev
    let rank ← TMat.get_rank F2Mod.cops.tops A_tI
    let nullity ← isub A.num_rows rank
    let multiplicity ← fi.get_ith_count i
    ok (if nullity ≠ multiplicity then false else rv)

/-- f2_polymod_linear_algebra.cpp:188-254: from the factorization over the extension field on. -/
def finish (ext : F2P) (chpol : CPoly F2Mod) (A : TMat F2Mod) : Res (Bool × F2P × TVec F2Mod) := do
  let fi ← F2nP.factor chpol
  let nev ← countLinear fi
  let s ← eigenvalues fi nev
  let rv ← multiplicities fi A s.2 nev s.1
  ok (rv, ext, s.2)

/-- f2_polymod_linear_algebra.cpp:83-255. -/
def is_diagonalizable (tm : TrimMask) (qs : List (F2Mod × Nat) → List (F2Mod × Nat)) (vs : List F2Mod → List F2Mod) (A : TMat F2Mod) :
    Res (Bool × F2P × TVec F2Mod) := do
  let chpol ← LinAlg.f2n_char_poly A
  let base ← F2nP.factor chpol
  let deglcm ← degLcm base
  let a ← TMat.cget A 0 0
  let base_degree ← F2P.find_degree a.modulus
  let ext_degree ← imul deglcm base_degree
  if deglcm = 1 then finish a.modulus chpol A
  else do
    let ext ← F2P.find_irreducible tm ext_degree
    let g ← F2U.find_generator tm a.modulus
    match g with
    | none => .throw
    | some base_g => do
      let g ← Convert.prep vs base_g ext
      match g with
      | none => .throw
      | some ext_g => do
        let chpol ← Convert.poly qs base_g ext_g chpol
        let A ← Convert.matrix qs base_g ext_g A
        finish ext chpol A

end Diag
end Spffl
