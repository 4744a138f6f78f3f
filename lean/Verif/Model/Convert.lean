/-
Model of spffl/linalg/f2_polymod_convert.cpp: moving elements, polynomials and matrices from one
presentation of a field F_{2^n} to another.

`qs` is the `qsort` of f2_polymod_units.cpp (logarithms), `vs` the one of tvector.h:471-474; both are
parameters, as in Model/Units.lean.  Out-parameters are the `some` of the result.
-/
import Verif.Model.MinPoly
import Verif.Model.Units

namespace Spffl
open Res
namespace Convert

/-- f2n_poly_t.cpp:642-646. -/
def change_modulus (p : CPoly F2Mod) (m : F2P) : Res (CPoly F2Mod) := do
  let cs ← forUp 0 (p.degree + 1) p.coeffs fun i cs =>
    store cs i (do let c ← rd cs i; F2Mod.change_modulus c m)
  ok ⟨p.degree, cs⟩

/-- f2_polymod_convert.cpp:15-31. -/
def prep (vs : List F2Mod → List F2Mod) (g1 : F2Mod) (m2 : F2P) : Res (Option F2Mod) := do
  let p1 ← LinAlg.f2_polymod_min_poly g1
  let p2 ← CPoly.copy F2Mod.cops p1
  let p2 ← change_modulus p2 m2
  match ← F2nP.roots p2 with
  | none => ok none
  | some rs =>
    if rs.length ≠ p2.degree then ok none
    else do
      let r ← rd (vs rs) 0
      ok (some r)

/-- f2_polymod_convert.cpp:34-45. -/
def scalar (qs : List (F2Mod × Nat) → List (F2Mod × Nat)) (g1 g2 a1 : F2Mod) : Res F2Mod := do
  let zero1 ← F2Mod.sub g1 g1
  let zero2 ← F2Mod.sub g2 g2
  let z ← F2Mod.eq a1 zero1
  if z then ok zero2
  else do
    let e ← F2U.log qs g1 a1
    F2Mod.exp g2 e

/-- f2_polymod_convert.cpp:48-57.  While the loop runs, `f2` holds coefficients with both moduli. -/
def poly (qs : List (F2Mod × Nat) → List (F2Mod × Nat)) (g1 g2 : F2Mod) (f1 : CPoly F2Mod) : Res (CPoly F2Mod) := do
  let f2 ← CPoly.copy F2Mod.cops f1
  forUp 0 (f1.degree + 1) f2 fun i f2 => do
    let c ← CPoly.get_coeff F2Mod.cops f1 i
    let c ← scalar qs g1 g2 c
    CPoly.set_coeff F2Mod.cops f2 i c

/-- f2_polymod_convert.cpp:60-73. -/
def matrix (qs : List (F2Mod × Nat) → List (F2Mod × Nat)) (g1 g2 : F2Mod) (A1 : TMat F2Mod) : Res (TMat F2Mod) := do
  let nr := TMat.num_rows A1
  let nc := TMat.num_cols A1
  let A2 ← TMat.alloc F2Mod.cops.tops nr nc
  forUp 0 nr A2 fun i A2 => forUp 0 nc A2 fun j A2 =>
    TMat.cput A2 i j (do let a ← TMat.cget A1 i j; scalar qs g1 g2 a)

end Convert
end Spffl
