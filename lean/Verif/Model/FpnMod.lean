import Verif.Model.CMod

/-!
# Residues of polynomials over F_p[t]/(M)

`/repo/spffl/polynomials/fpn_polymod_t.cpp` has the code of `f2n_polymod_t.cpp` over `fpn_poly_t` (checked by a textual
diff), so it is `CMod` over the coefficients `FpMod.cops`; the functions that differ are here.
-/

namespace Spffl
open Res

/-- `operator*(int)`, `/repo/spffl/polynomials/fpn_polymod_t.cpp:97-104`. -/
def FpnMod.mulInt (a : CMod (CMod IntMod)) (k : Int) : Res (CMod (CMod IntMod)) := do
  let rv ← CMod.sub FpMod.cops a a
  forUp 0 k.toNat rv fun _ rv => CMod.add FpMod.cops rv a

/-- `get_characteristic`, `/repo/spffl/polynomials/fpn_polymod_t.cpp:58-60`, `fpn_poly_t.cpp`, `fp_polymod_t.cpp:57-59`,
`fp_poly_t.cpp:123-125`: read from the lowest coefficients. -/
def FpnMod.get_characteristic (a : CMod (CMod IntMod)) : Res Int := do
  let c ← rd a.residue.coeffs 0
  let d ← rd c.residue.coeffs 0
  ok d.modulus

end Spffl
