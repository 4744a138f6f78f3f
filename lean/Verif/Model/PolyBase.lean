/-
Model of the static method `from_base_rep` of `fp_poly_t`: a polynomial from the digits of an int.  The methods of that name of
`f2n_poly_t` and `fpn_poly_t` throw whatever their arguments are (`/repo/spffl/polynomials/f2n_poly_t.cpp:76-102`,
`/repo/spffl/polynomials/fpn_poly_t.cpp:54-60`).
-/
import Verif.Model.CoefInst

namespace Spffl
open Res
namespace PolyBase

/-- `/repo/spffl/polynomials/fp_poly_t.cpp:84-89`: `while (temp) { temp /= m; degree++; }`.  The first argument bounds the number
of rounds; beyond that of the caller `degree` overflows. -/
def degLoop (m : Int) : Nat → Int → Int → Res Int
  | 0, _, _ => timeout
  | k + 1, temp, d =>
    if temp = 0 then ok d
    else do
      let temp ← idiv temp m
      let d ← iadd d 1
      degLoop m k temp d

/-- `/repo/spffl/polynomials/fp_poly_t.cpp:93-96`. -/
def fill (m : Int) (n : Nat) (b : Int) : Res (List IntMod × Int) :=
  forUp 0 n (List.replicate n IntMod.default, b) fun i s => do
    let r ← imod s.2 m
    let c ← IntMod.mk' r m
    let cs ← wr s.1 i c
    let b ← idiv s.2 m
    ok (cs, b)

/-- `/repo/spffl/polynomials/fp_poly_t.cpp:79-90`. -/
def deg (b m : Int) : Res Int := if b = 0 then ok 0 else degLoop m (2 ^ 32) b (-1)

/-- `/repo/spffl/polynomials/fp_poly_t.cpp:77-98`. -/
def fp_from_base_rep (b m : Int) : Res (CPoly IntMod) := do
  let d ← deg b m
  let r ← fill m (d.toNat + 1) b
  ok ⟨d.toNat, r.1⟩

end PolyBase
end Spffl
