/-
Model of spffl/units: f2_polymod_units.cpp, fp_units.cpp, f2n_polymod_units.cpp.

The three files are copies of one another; what they share is written once over a record of the
element operations.  `qsort` (called with a comparator built from `<` and `>` of the residues) is a
parameter: the theorems hold for every function that returns a rearrangement of its argument sorted
by that comparator, so neither the algorithm nor its treatment of equal elements is fixed.
-/
import Verif.Model.F2Factor
import Verif.Model.CFactor
import Verif.Model.CMod
import Verif.Model.FacInfo
import Verif.Model.IntMath

namespace Spffl
open Res

/-- The operations of the residue class type used by the units files. -/
structure UOps (α : Type) where
  mul : α → α → Res α
  div : α → α → Res α
  recip : α → Res (Option α)
  exp : α → Int → Res α
  eq : α → α → Res Bool
  lt : α → α → Res Bool

namespace Units
variable {α σ : Type} (U : UOps α)

/-- f2_polymod_units.cpp:38-39, fp_units.cpp:35-36, f2n_polymod_units.cpp:39-40. -/
def phi_divisors (phi : Int) : Res (List Int) := do
  let f ← int_factor phi
  FacInfo.get_all_divisors intOps f 1

/-- f2_polymod_units.cpp:45-57, fp_units.cpp:42-54, f2n_polymod_units.cpp:46-58. -/
def orderLoop (a one : α) : List Int → Res Int
  | [] => throw
  | d :: l => do
    let ap ← U.exp a d
    let b ← U.eq ap one
    if b then ok d else orderLoop a one l

/-- f2_polymod_units.cpp:74-88, f2n_polymod_units.cpp:75-89: `lt` is the loop condition on the residue,
`mk` makes the residue class, `incr` is `increment`.  `k` iterations allowed. -/
def genLoop (lt : σ → Res Bool) (mk : σ → Res α) (incr : σ → Res σ) (order : α → Res Int) (phi : Int) :
    Nat → σ → Res (Option α)
  | 0, _ => timeout
  | k + 1, s => do
    let c ← lt s
    if c then do
      let g ← mk s
      let o ← order g
      if o = phi then ok (some g)
      else do
        let s ← incr s
        genLoop lt mk incr order phi k s
    else ok none

/-- f2_polymod_units.cpp:251-254, 255-258: `l[i] = l[i-1] * x` with index `i`. -/
def powStep (x : α) (i : Nat) (l : List (α × Nat)) : Res (List (α × Nat)) := do
  let p ← rd l (i - 1)
  let y ← U.mul p.1 x
  ok (l ++ [(y, i)])

/-- f2_polymod_units.cpp:263-273: the merge of the two sorted arrays; the result is the pair of indices. -/
def scan : Nat → List (α × Nat) → List (α × Nat) → Res (Option (Nat × Nat))
  | 0, _, _ => timeout
  | k + 1, x :: xs, y :: ys => do
    let e ← U.eq x.1 y.1
    if e then ok (some (x.2, y.2))
    else do
      let c ← U.lt x.1 y.1
      if c then scan k xs (y :: ys) else scan k (x :: xs) ys
  | _ + 1, _, _ => ok none

/-- conversion of `unsigned` to `int` -/
def toInt32 (n : Nat) : Int := (BitVec.ofNat 32 n).toInt

/-- f2_polymod_units.cpp:233-280, fp_units.cpp:114-161, f2n_polymod_units.cpp:135-195 after `k` has been
computed.  `rv = idx_i + idx_j * k` is computed in `unsigned`; -1 doubles as "not found". -/
def bsgs (qs : List (α × Nat) → List (α × Nat)) (g a : α) (k : Nat) : Res Int :=
  if k = 0 then ub
  else do
    match ← U.recip g with
    | none => throw
    | some ginv => do
      let gk ← U.exp g k
      let one ← U.div g g
      let agni ← forUp 1 k [(a, 0)] (powStep U ginv)
      let gkj ← forUp 1 k [(one, 0)] (powStep U gk)
      match ← scan U (2 * k + 1) (qs agni) (qs gkj) with
      | none => throw
      | some r =>
        let rv := toInt32 (r.1 + r.2 * k)
        if rv = -1 then throw else ok rv

end Units

/-! ### f2_polymod_units.cpp -/
namespace F2U

def uops : UOps F2Mod where
  mul := F2Mod.mul
  div := F2Mod.div
  recip := F2Mod.recip
  exp := F2Mod.exp
  eq := F2Mod.eq
  lt := F2Mod.lt

/-- f2_polymod_units.cpp:24-58. -/
def order (tm : TrimMask) (a : F2Mod) : Res Int := do
  let g ← F2P.gcd a.residue a.modulus
  let ne ← F2P.ne g F2P.one
  if ne then throw
  else do
    let phi ← F2P.totient tm a.modulus
    let ds ← Units.phi_divisors phi
    let one ← F2Mod.mk' F2P.one a.modulus
    Units.orderLoop uops a one ds

/-- f2_polymod_units.cpp:61-89; `none` is the `false` return. -/
def find_generator (tm : TrimMask) (m : F2P) : Res (Option F2Mod) := do
  let mdeg ← F2P.find_degree m
  if mdeg < 1 then throw
  else do
    let phi ← F2P.totient tm m
    Units.genLoop (fun s => do let d ← F2P.find_degree s; ok (decide (d < mdeg))) (fun s => F2Mod.mk' s m)
      F2P.increment (order tm) phi (2 ^ mdeg + 1) F2P.one

/-- f2_polymod_units.cpp:118-131. -/
def primLoop (rcrx rcr1 : F2Mod) : List Int → Res Bool
  | [] => ok true
  | d :: l => do
    let p ← F2Mod.exp rcrx d
    let b ← F2Mod.eq p rcr1
    if b then ok false else primLoop rcrx rcr1 l

/-- f2_polymod_units.cpp:98-132. -/
def is_primitive (tm : TrimMask) (m : F2P) : Res Bool := do
  let g ← F2P.gcd (F2P.ofInt2 1 0) m
  let ne ← F2P.ne g F2P.one
  if ne then ok false
  else do
    let rcr1 ← F2Mod.mk' F2P.one m
    let rcrx ← F2Mod.mk' (F2P.ofInt2 1 0) m
    let phi ← F2P.totient tm m
    let finfo ← int_factor phi
    match ← FacInfo.get_maximal_proper_divisors intOps finfo 1 with
    | none => ok true
    | some mpds => do
      let b ← primLoop rcrx rcr1 mpds
      if b then do
        let p ← F2Mod.exp rcrx phi
        F2Mod.eq p rcr1
      else ok false

/-- f2_polymod_units.cpp:135-142. -/
def period (tm : TrimMask) (m : F2P) : Res Int := do
  let g ← F2P.gcd (F2P.ofInt2 1 0) m
  let ne ← F2P.ne g F2P.one
  if ne then ok 0
  else do
    let x ← F2Mod.mk' (F2P.ofInt2 1 0) m
    order tm x

/-- f2_polymod_units.cpp:159-160: the test of one candidate. -/
def primTest (tm : TrimMask) (need_irr : Bool) (rv : F2P) : Res Bool := do
  let b ← is_primitive tm rv
  if b then
    if need_irr then F2P.is_irreducible tm rv else ok true
  else ok false

/-- f2_polymod_units.cpp:158-171, `k` iterations allowed. -/
def primSearch (tm : TrimMask) (degree : Int) (need_irr : Bool) : Nat → F2P → Res F2P
  | 0, _ => timeout
  | k + 1, rv => do
    let d ← F2P.find_degree rv
    if (d : Int) = degree then do
      let b ← primTest tm need_irr rv
      if b then ok rv
      else do
        let rv ← F2P.increment rv
        primSearch tm degree need_irr k rv
    else throw

/-- f2_polymod_units.cpp:146-174. -/
def find_prim (tm : TrimMask) (degree : Int) (need_irr : Bool) : Res F2P := do
  let rv ← F2P.set_bit F2P.zero degree
  let rv ← F2P.set_bit rv 0
  if degree < 1 then throw
  else primSearch tm degree need_irr (2 ^ degree.toNat + 1) rv

/-- f2_polymod_units.cpp:187-194 for one sequence of values returned by `f2_poly_random`. -/
def random_prim_from (tm : TrimMask) (need_irr : Bool) : List F2P → Res F2P
  | [] => timeout
  | rv :: l => do
    let b ← primTest tm need_irr rv
    if b then ok rv else random_prim_from tm need_irr l

/-- f2_polymod_units.cpp:177-195. -/
def random_prim (tm : TrimMask) (degree : Int) (need_irr : Bool) (l : List F2P) : Res F2P :=
  if degree < 1 then throw else random_prim_from tm need_irr l

/-- f2_polymod_units.cpp:223-285. -/
def log (qs : List (F2Mod × Nat) → List (F2Mod × Nat)) (g a : F2Mod) : Res Int := do
  let d ← F2P.find_degree g.modulus
  let n ← ishl 1 d
  let k ← int_sqrt_ceil n
  Units.bsgs uops qs g a k.toNat

end F2U

/-! ### fp_units.cpp -/
namespace FpU

def uops : UOps IntMod where
  mul := IntMod.mul
  div := IntMod.cops.div
  recip := IntMod.cops.recip
  exp := IntMod.cops.exp
  eq := IntMod.eq
  lt := IntMod.lt

/-- fp_units.cpp:23-55. -/
def order (a : IntMod) : Res Int := do
  let g ← int_gcd a.residue a.modulus
  if g ≠ 1 then throw
  else do
    let phi ← int_totient a.modulus
    let ds ← Units.phi_divisors phi
    let one ← IntMod.mk' 1 a.modulus
    Units.orderLoop uops a one ds

/-- fp_units.cpp:62-76, `k` iterations allowed. -/
def genLoop (p phi : Int) : Nat → Int → Res (Option IntMod)
  | 0, _ => timeout
  | k + 1, gres =>
    if gres < p then do
      let g ← int_gcd gres p
      if g ≠ 1 then do
        let gres ← iadd gres 1
        genLoop p phi k gres
      else do
        let g ← IntMod.mk' gres p
        let o ← order g
        if o = phi then ok (some g)
        else do
          let gres ← iadd gres 1
          genLoop p phi k gres
    else ok none

/-- fp_units.cpp:58-77. -/
def find_generator (p : Int) : Res (Option IntMod) := do
  let phi ← int_totient p
  genLoop p phi (p.toNat + 1) 1

/-- fp_units.cpp:105-166. -/
def log (qs : List (IntMod × Nat) → List (IntMod × Nat)) (g a : IntMod) : Res Int := do
  let k ← int_sqrt_ceil g.modulus
  let rv ← Units.bsgs uops qs g a k.toNat
  let phi ← int_totient g.modulus
  imod rv phi

end FpU

/-! ### f2n_polymod_units.cpp -/
namespace F2nU

def uops : UOps (CMod F2Mod) where
  mul := CMod.mul F2Mod.cops
  div := CMod.div F2Mod.cops
  recip := CMod.recip F2Mod.cops
  exp := CMod.exp F2Mod.cops
  eq := CMod.eq F2Mod.cops
  lt := CMod.lt F2Mod.cops

/-- f2n_polymod_units.cpp:22-59. -/
def order (a : CMod F2Mod) : Res Int := do
  let g ← CPoly.gcd F2Mod.cops a.residue a.modulus
  let c ← CPoly.get_coeff F2Mod.cops g g.degree
  let g ← CPoly.sdiv F2Mod.cops g c
  let pol1 ← CPoly.psub F2Mod.cops a.modulus 1
  let e ← CPoly.eq F2Mod.cops g pol1
  if !e then throw
  else do
    let phi ← F2nP.totient a.modulus
    let ds ← Units.phi_divisors phi
    let one ← CMod.mk' F2Mod.cops pol1 a.modulus
    Units.orderLoop uops a one ds

/-- f2n_polymod_units.cpp:62-90; `none` is the `false` return.  The number of residues bounds the loop. -/
def find_generator (m : CPoly F2Mod) : Res (Option (CMod F2Mod)) := do
  let gres ← CPoly.psub F2Mod.cops m 1
  if m.degree < 1 then throw
  else do
    let phi ← F2nP.totient m
    let q ← F2nP.ctx.q m
    Units.genLoop (fun s : CPoly F2Mod => ok (decide (s.degree < m.degree))) (fun s => CMod.mk' F2Mod.cops s m)
      F2nP.increment order phi (q.toNat ^ m.degree + 1) gres

/-- f2n_polymod_units.cpp:118-200.  The lines written to `cout` are not modelled. -/
def log (qs : List (CMod F2Mod × Nat) → List (CMod F2Mod × Nat)) (g a : CMod F2Mod) : Res Int := do
  let n ← ishl 1 g.modulus.degree
  let k ← int_sqrt_ceil n
  Units.bsgs uops qs g a k.toNat

end F2nU
end Spffl
