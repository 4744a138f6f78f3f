/-
Model of pre-cmake/utils/moebius.cpp and of the counting functions of pre-cmake/tools/f2pmchart.cpp: the number of irreducible
polynomials over F2 of a degree, and the list of them.
`int_factor` is the one of the library (FacInfo.lean); the chart itself and its printing are not modelled.
-/
import Verif.Model.FacInfo
import Verif.Model.F2Factor

namespace Spffl.Chart
open Res

/-- The loop of `/repo/pre-cmake/utils/moebius.cpp:17-21` over the distinct factors from `i` on, `k` of them left. -/
def moebiusLoop (f : FacInfo Int) : Nat → Int → Int → Res Int
  | 0, _, rv => ok rv
  | k + 1, i, rv => do
    let c ← FacInfo.get_ith_count f i
    if c > 1 then ok 0
    else do
      let rv ← imul rv (-1)
      moebiusLoop f k (i + 1) rv

/-- `/repo/pre-cmake/utils/moebius.cpp:11-23`. -/
def calc_moebius (n : Int) : Res Int := do
  let finfo ← int_factor n
  moebiusLoop finfo (FacInfo.num_distinct finfo) 0 1

/-- `/repo/pre-cmake/tools/f2pmchart.cpp:167-176`.  For `n ≤ 0` the loop does not run. -/
def num_irreds_deg_is (n : Int) : Res Int := do
  let sum ← forUp 1 (n.toNat + 1) (0 : Int) fun d sum => do
    let r ← imod n d
    if r = 0 then do
      let q ← idiv n d
      let m ← calc_moebius q
      let s ← ishl 1 d
      let t ← imul m s
      iadd sum t
    else ok sum
  idiv sum n

/-- `/repo/pre-cmake/tools/f2pmchart.cpp:179-187`. -/
def num_irreds_deg_divides (n : Int) : Res Int :=
  forUp 1 (n.toNat + 1) (0 : Int) fun d sum => do
    let r ← imod n d
    if r = 0 then do
      let c ← num_irreds_deg_is d
      iadd sum c
    else ok sum

/-- The loop of `/repo/pre-cmake/tools/f2pmchart.cpp:200-211`; `k` rounds allowed.  `exit(1)` is `throw`. -/
def findLoop (tm : TrimMask) (fhi : F2P) (num_irreds : Int) : Nat → F2P → Nat → List F2P → Res (List F2P)
  | 0, _, _, _ => timeout
  | k + 1, f, count, pirreds => do
    let b ← F2P.le f fhi
    if b then do
      let irr ← F2P.is_irreducible tm f
      if irr then
        if (count : Int) ≥ num_irreds then throw
        else do
          let pirreds ← wr pirreds count f
          let f ← F2P.increment f
          findLoop tm fhi num_irreds k f (count + 1) pirreds
      else do
        let f ← F2P.increment f
        findLoop tm fhi num_irreds k f count pirreds
    else ok pirreds

/-- `/repo/pre-cmake/tools/f2pmchart.cpp:190-212`, on the array `pirreds`.  The `int` argument of `from_base_rep` is converted to 64 bits. -/
def find_irreds (tm : TrimMask) (n : Int) (pirreds : List F2P) (num_irreds : Int) : Res (List F2P) := do
  let lo ← ishl 1 n
  let n1 ← iadd n 1
  let h ← ishl 1 n1
  let h ← isub h 1
  findLoop tm (F2P.from_base_rep (BitVec.ofInt 64 h)) num_irreds (2 ^ n.toNat + 1) (F2P.from_base_rep (BitVec.ofInt 64 lo)) 0 pirreds

/-- `/repo/pre-cmake/tools/f2pmchart.cpp:144-147`: the list of the irreducible polynomials of a degree, as `main` makes it for an argument
`:n`.  A negative number of elements makes `new` throw. -/
def irreds (tm : TrimMask) (n : Int) : Res (List F2P) := do
  let num_irreds ← num_irreds_deg_is n
  if num_irreds < 0 then throw
  else find_irreds tm n (List.replicate num_irreds.toNat F2P.zero) num_irreds

end Spffl.Chart
