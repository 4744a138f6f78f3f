import Verif.Model.Random
import Verif.Model.F2Factor
import Verif.Model.CFactor

/-!
# Random irreducible polynomials

`f2_poly_random_irreducible`, `fp_poly_random_irr`, `f2n_poly_random_irr`.  The loops have no bound in the source; here
the number of rounds is a parameter `n`, and running out of rounds is `timeout`.
-/

namespace Spffl
open Res

namespace Random

/-- `for (;;)` with a `return` in the body: `draw` is one round, giving the value returned, if any. -/
def search {β : Type} (draw : Nat → Res (Option β × Nat)) : Nat → Nat → Res (β × Nat)
  | 0, _ => timeout
  | n + 1, pos => do
    let s ← draw pos
    match s.1 with
    | some r => ok (r, s.2)
    | none => search draw n s.2

/-- f2_poly_factor.cpp:479-483: one round. -/
def f2_irr_round (tm : TrimMask) (src : Src) (deg : Int) (pos : Nat) : Res (Option F2P × Nat) := do
  let s ← f2_poly_random src deg pos
  let rv ← F2P.set_bit s.1 0
  let b ← F2P.is_irreducible tm rv
  ok (if b then some rv else none, s.2)

/-- f2_poly_factor.cpp:469-486. -/
def f2_poly_random_irreducible (tm : TrimMask) (src : Src) (deg : Int) (n pos : Nat) : Res (F2P × Nat) :=
  if deg < 1 then throw else search (f2_irr_round tm src deg) n pos

/-- fp_poly_factor.cpp:342-348 and f2n_poly_factor.cpp:396-402: what follows the draw. -/
def irr_round {α : Type} (O : CoefOps α) (is_irreducible : CPoly α → Res Bool) (zero : α) (deg : Int)
    (s : CPoly α × Nat) : Res (Option (CPoly α) × Nat) := do
  let c ← CPoly.get_coeff O s.1 0
  let z ← O.eq c zero
  if z then ok (none, s.2)
  else do
    let b ← is_irreducible s.1
    if b then do
      let l ← CPoly.get_coeff O s.1 deg
      let rv ← CPoly.sdiv O s.1 l
      ok (some rv, s.2)
    else ok (none, s.2)

/-- fp_poly_factor.cpp:329-350. -/
def fp_poly_random_irr (src : Src) (p deg : Int) (n pos : Nat) : Res (CPoly IntMod × Nat) := do
  let zero ← IntMod.mk' 0 p
  if deg < 1 then throw
  else search (fun q => do
    let s ← fp_poly_random src p deg q
    irr_round IntMod.cops FpP.is_irreducible zero deg s) n pos

/-- f2n_poly_factor.cpp:382-404. -/
def f2n_poly_random_irr (src : Src) (m : F2P) (deg : Int) (n pos : Nat) : Res (CPoly F2Mod × Nat) := do
  let zero ← F2Mod.mk' F2P.zero m
  if deg < 1 then throw
  else search (fun q => do
    let s ← f2n_poly_random src m deg q
    irr_round F2Mod.cops F2nP.is_irreducible zero deg s) n pos

end Random
end Spffl
