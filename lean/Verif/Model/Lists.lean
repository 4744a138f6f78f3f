/-
Model of spffl/list/list_elements.cpp.

The vectors returned are filled through tvector's checked `operator[]` (`TVec.put`, throws out of range).  The
elements of a fresh vector are default constructed; their value is passed as an argument here (`TVec.fill`).
fp_poly_list and f2n_poly_list, fp_polymod_list and f2n_polymod_list, and the two pairs of functions for affine
and projective space, are copies of one another; what each pair shares is written once.  Loops that run from one
polynomial to another by `increment` are bounded by a fuel argument, which the theorems show to be enough.
The two dimensions of a matrix are natural numbers in the loops; `n` is an `int` and negative values reach the
constructors.
-/
import Verif.Model.Units

namespace Spffl
open Res

namespace Lists
variable {α σ : Type}

/-- list_elements.h:18-24. -/
inductive LType
  | all | units | non_units | multiples | rel_prime
deriving DecidableEq, Repr

/-- `for (r = min, i = 0; r < max; r.increment()) if (keep(r)) rv[i++] = mk(r);`  The result is `i` and `rv`. -/
def listLoop (lt keep : σ → Res Bool) (mk : σ → Res α) (incr : σ → Res σ) : Nat → σ → Nat → TVec α → Res (Nat × TVec α)
  | 0, _, _, _ => timeout
  | k + 1, r, i, rv => do
    let c ← lt r
    if c then do
      let b ← keep r
      if b then do
        let rv ← TVec.put rv i (mk r)
        let r ← incr r
        listLoop lt keep mk incr k r (i + 1) rv
      else do
        let r ← incr r
        listLoop lt keep mk incr k r i rv
    else ok (i, rv)

/-- tvector.h:498-506, seen through the elements that remain accessible. -/
def trim (rv : TVec α) (n : Nat) : Res (TVec α) :=
  if n < 1 ∨ rv.length < n then throw else ok (rv.take n)

/-! ### polynomials over F2 -/

/-- list_elements.cpp:19-35. -/
def f2_poly_list (deg : Int) : Res (TVec F2P) := do
  let nel ← ishl 1 deg
  let rv ← TVec.fill F2P.zero nel
  let min ← F2P.set_bit F2P.zero deg
  let d1 ← iadd deg 1
  let max ← F2P.set_bit F2P.zero d1
  let s ← listLoop (fun r => F2P.lt r max) (fun _ => ok true) ok F2P.increment (nel.toNat + 1) min 0 rv
  ok s.2

/-- list_elements.cpp:146-147: `g = r.gcd(m); (g.find_degree() == 0) && (g != zero)`. -/
def f2_unit_test (r m : F2P) : Res Bool := do
  let g ← F2P.gcd r m
  let d ← F2P.find_degree g
  if d = 0 then F2P.ne g F2P.zero else ok false

/-- list_elements.cpp:153-154: `g = r.gcd(m); (g.find_degree() != 0) || (g == zero)`. -/
def f2_nonunit_test (r m : F2P) : Res Bool := do
  let g ← F2P.gcd r m
  let d ← F2P.find_degree g
  if d ≠ 0 then ok true else F2P.eq g F2P.zero

/-- the loops of f2_polymod_list, given the number of elements and the test -/
def f2_fill (dflt : F2Mod) (m : F2P) (deg : Nat) (keep : F2P → Res Bool) (nel : Int) : Res (Nat × TVec F2Mod) := do
  let rv ← TVec.fill dflt nel
  let max ← F2P.set_bit F2P.zero deg
  listLoop (fun r => F2P.lt r max) keep (fun r => F2Mod.mk' r m) F2P.increment (2 ^ deg + 1) F2P.zero 0 rv

/-- list_elements.cpp:120-165. -/
def f2_polymod_list (tm : TrimMask) (m : F2P) (type : LType) : Res (TVec F2Mod) := do
  let deg ← F2P.find_degree m
  match type with
  | .all => do
    let nel ← ishl 1 deg
    let s ← f2_fill F2Mod.cops.dflt m deg (fun _ => ok true) nel
    ok s.2
  | .units => do
    let nel ← F2P.totient tm m
    let s ← f2_fill F2Mod.cops.dflt m deg (fun r => f2_unit_test r m) nel
    ok s.2
  | .non_units => do
    let q ← ishl 1 deg
    let phi ← F2P.totient tm m
    let nel ← isub q phi
    let s ← f2_fill F2Mod.cops.dflt m deg (fun r => f2_nonunit_test r m) nel
    ok s.2
  | _ => throw

/-- list_elements.cpp:271-305. -/
def f2_polymod_glist (g : F2Mod) (type : LType) : Res (TVec F2Mod) := do
  let gr ← F2P.gcd g.modulus g.residue
  let deg ← F2P.find_degree g.modulus
  let maxnel ← ishl 1 deg
  match type with
  | .multiples => do
    let s ← f2_fill F2Mod.cops.dflt g.modulus deg (fun r => do let t ← F2P.mod r gr; F2P.eq t F2P.zero) maxnel
    trim s.2 s.1
  | .rel_prime => do
    let s ← f2_fill F2Mod.cops.dflt g.modulus deg (fun r => f2_unit_test r gr) maxnel
    trim s.2 s.1
  | _ => do
    let rv ← TVec.fill F2Mod.cops.dflt maxnel
    trim rv 0

/-! ### polynomials over Fp and over F2^n -/

/-- list_elements.cpp:43-58, 64-79. -/
def cpoly_list (X : FCtx α) (zero one : α) (nel deg : Int) : Res (TVec (CPoly α)) := do
  let rv ← TVec.fill (CFac.dfltPoly X) nel
  let min ← CPoly.const X.O zero
  let max ← CPoly.const X.O zero
  let min ← CPoly.set_coeff X.O min deg one
  let d1 ← iadd deg 1
  let max ← CPoly.set_coeff X.O max d1 one
  let s ← listLoop (fun r => CPoly.lt X.O r max) (fun _ => ok true) ok X.incr (nel.toNat + 1) min 0 rv
  ok s.2

/-- list_elements.cpp:38-59. -/
def f2n_poly_list (im : F2P) (outerdeg : Int) : Res (TVec (CPoly F2Mod)) := do
  let innerdeg ← F2P.find_degree im
  let q ← ishl 1 innerdeg
  let q1 ← isub q 1
  let e ← int_power q outerdeg
  let nel ← imul q1 e
  let zero ← F2Mod.mk' F2P.zero im
  let one ← F2Mod.mk' F2P.one im
  cpoly_list F2nP.ctx zero one nel outerdeg

/-- list_elements.cpp:62-80. -/
def fp_poly_list (p deg : Int) : Res (TVec (CPoly IntMod)) := do
  let p1 ← isub p 1
  let e ← int_power p deg
  let nel ← imul p1 e
  let zero ← IntMod.mk' 0 p
  let one ← IntMod.mk' 1 p
  cpoly_list FpP.ctx zero one nel deg

/-- list_elements.cpp:199-200, 249-250; `zero` is converted to a polynomial. -/
def c_unit_test (X : FCtx α) (zero : α) (r m : CPoly α) : Res Bool := do
  let g ← CPoly.gcd X.O r m
  if g.degree = 0 then do
    let z ← CPoly.const X.O zero
    let e ← CPoly.eq X.O g z
    ok (!e)
  else ok false

/-- list_elements.cpp:206-207, 256-257. -/
def c_nonunit_test (X : FCtx α) (zero : α) (r m : CPoly α) : Res Bool := do
  let g ← CPoly.gcd X.O r m
  if g.degree ≠ 0 then ok true
  else do
    let z ← CPoly.const X.O zero
    CPoly.eq X.O g z

/-- the loops of fp_polymod_list and f2n_polymod_list; `q` bounds their number of iterations -/
def c_fill (X : FCtx α) (dflt : CMod α) (zero one : α) (q : Nat) (m : CPoly α) (keep : CPoly α → Res Bool) (nel : Int) :
    Res (TVec (CMod α)) := do
  let rv ← TVec.fill dflt nel
  let min ← CPoly.const X.O zero
  let max ← CPoly.const X.O zero
  let max ← CPoly.set_coeff X.O max m.degree one
  let s ← listLoop (fun r => CPoly.lt X.O r max) keep (fun r => CMod.mk' X.O r m) X.incr (q ^ m.degree + 1) min 0 rv
  ok s.2

/-- list_elements.cpp:168-218, 221-268: `card` is the number of all residues as it is computed there. -/
def cpolymod_list (X : FCtx α) (dflt : CMod α) (zero one : Res α) (card : Res Int) (q : Nat) (m : CPoly α) (type : LType) :
    Res (TVec (CMod α)) :=
  match type with
  | .all => do
    let nel ← card
    let zero ← zero
    let one ← one
    c_fill X dflt zero one q m (fun _ => ok true) nel
  | .units => do
    let nel ← CFac.totient X m
    let zero ← zero
    let one ← one
    c_fill X dflt zero one q m (fun r => c_unit_test X zero r m) nel
  | .non_units => do
    let n ← card
    let phi ← CFac.totient X m
    let nel ← isub n phi
    let zero ← zero
    let one ← one
    c_fill X dflt zero one q m (fun r => c_nonunit_test X zero r m) nel
  | _ => throw

/-- list_elements.cpp:168-218. -/
def f2n_polymod_list (dflt : CMod F2Mod) (om : CPoly F2Mod) (type : LType) : Res (TVec (CMod F2Mod)) := do
  let c0 ← CPoly.get_coeff F2Mod.cops om 0
  let innerdeg ← F2P.find_degree c0.modulus
  cpolymod_list F2nP.ctx dflt (F2Mod.prime_subfield_element 0 c0.modulus) (F2Mod.prime_subfield_element 1 c0.modulus)
    (do let k ← imul om.degree innerdeg; ishl 1 k) (2 ^ innerdeg) om type

/-- list_elements.cpp:221-268. -/
def fp_polymod_list (dflt : CMod IntMod) (m : CPoly IntMod) (type : LType) : Res (TVec (CMod IntMod)) := do
  let c0 ← rd m.coeffs 0
  cpolymod_list FpP.ctx dflt (IntMod.mk' 0 c0.modulus) (IntMod.mk' 1 c0.modulus) (int_power c0.modulus m.degree)
    c0.modulus.toNat m type

/-! ### integers -/

/-- list_elements.cpp:97-115, 315-327: `if (keep(i)) rv[j++] = intmod_t(i, p)` for `i` from 0 to `p - 1`. -/
def intmod_fill (p : Int) (keep : Int → Res Bool) (nel : Int) : Res (Nat × TVec IntMod) := do
  let rv ← TVec.fill IntMod.cops.dflt nel
  forUp 0 p.toNat (0, rv) fun i s => do
    let b ← keep i
    if b then do
      let rv ← TVec.put s.2 s.1 (IntMod.mk' i p)
      ok (s.1 + 1, rv)
    else ok s

/-- list_elements.cpp:83-117. -/
def intmod_list (p : Int) (type : LType) : Res (TVec IntMod) :=
  match type with
  | .all => do
    let s ← intmod_fill p (fun _ => ok true) p
    ok s.2
  | .units => do
    let nel ← int_totient p
    let s ← intmod_fill p (fun i => do let g ← int_gcd i p; ok (decide (g = 1))) nel
    ok s.2
  | .non_units => do
    let phi ← int_totient p
    let nel ← isub p phi
    let s ← intmod_fill p (fun i => do let g ← int_gcd i p; ok (decide (g ≠ 1))) nel
    ok s.2
  | _ => throw

/-- list_elements.cpp:308-331. -/
def intmod_glist (g : IntMod) (type : LType) : Res (TVec IntMod) := do
  let gr ← int_gcd g.modulus g.residue
  match type with
  | .multiples => do
    let s ← intmod_fill g.modulus (fun r => do let t ← imod r gr; ok (decide (t = 0))) g.modulus
    trim s.2 s.1
  | .rel_prime => do
    let s ← intmod_fill g.modulus (fun r => do let d ← int_gcd r gr; ok (decide (d = 1))) g.modulus
    trim s.2 s.1
  | _ => do
    let rv ← TVec.fill IntMod.cops.dflt g.modulus
    trim rv 0

/-! ### affine and projective space -/

/-- list_elements.cpp:346-350, 385-389, 421-425, 461-465: `k` base-`q` digits of `baserep` select elements of `Fq` for the columns
`k - 1` down to 0 of row `row`. -/
def digitRow (Fq : TVec α) (q : Int) (row k : Nat) (baserep : Nat) (rv : TMat α) : Res (TMat α) := do
  let s ← forUp 0 k (rv, (baserep : Int)) fun j s => do
    let rv ← TMat.cput s.1 row (k - j - 1) (do let d ← imod s.2 q; TVec.get Fq d.toNat)
    let b ← idiv s.2 q
    ok (rv, b)
  ok s.1

/-- list_elements.cpp:334-354, 408-429, after `q` has been computed. -/
def an_list (dflt : α) (q n : Int) (Fq : Res (TVec α)) : Res (TMat α) := do
  let qn ← int_power q n
  let rv ← TMat.fill dflt qn n
  let Fq ← Fq
  forUp 0 qn.toNat rv fun i rv => digitRow Fq q i n.toNat i rv

/-- list_elements.cpp:390-393, 466-469 for one row: `one` in column `k`, `zero` to the right of it. -/
def tailRow (zero one : α) (row k n : Nat) (rv : TMat α) : Res (TMat α) := do
  let rv ← TMat.cput rv row k (ok one)
  forUp (k + 1) (n + 1) rv fun j rv => TMat.cput rv row j (ok zero)

/-- list_elements.cpp:383-395, 459-471: the rows whose last non-zero entry is in column `k`. -/
def pnBlock (zero one : α) (Fq : TVec α) (q : Int) (n k : Nat) (s : TMat α × Nat) : Res (TMat α × Nat) := do
  let qk ← int_power q k
  forUp 0 qk.toNat s fun i s => do
    let rv ← digitRow Fq q s.2 k i s.1
    let rv ← tailRow zero one s.2 k n rv
    ok (rv, s.2 + 1)

/-- list_elements.cpp:363-405, 438-481, after `q` has been computed. -/
def pn_list (dflt : α) (q n : Int) (Fq : Res (TVec α)) (zero one : Res α) : Res (TMat α) := do
  let Fq ← Fq
  let zero ← zero
  let one ← one
  let oP ← forUp 0 (n + 1).toNat 0 fun k oP => do
    let e ← int_power q (k : Int)
    iadd oP e
  let n1 ← iadd n 1
  let rv ← TMat.fill dflt oP n1
  let s ← forUp 0 (n + 1).toNat (rv, 0) fun k s => pnBlock zero one Fq q n.toNat k s
  if (s.2 : Int) ≠ oP then throw else ok s.1

/-- list_elements.cpp:334-354. -/
def f2_polymod_An_list (tm : TrimMask) (m : F2P) (n : Int) : Res (TMat F2Mod) := do
  let d ← F2P.find_degree m
  let q ← ishl 1 d
  an_list F2Mod.cops.dflt q n (f2_polymod_list tm m .all)

/-- list_elements.cpp:363-405. -/
def f2_polymod_Pn_list (tm : TrimMask) (m : F2P) (n : Int) : Res (TMat F2Mod) := do
  let d ← F2P.find_degree m
  let q ← ishl 1 d
  pn_list F2Mod.cops.dflt q n (f2_polymod_list tm m .all) (F2Mod.prime_subfield_element 0 m) (F2Mod.prime_subfield_element 1 m)

/-- fp_polymod_t.cpp:51-53: the static `prime_subfield_element`. -/
def fp_static_psub (v : Int) (m : CPoly IntMod) : Res (CMod IntMod) := do
  let r ← CPoly.psub IntMod.cops m v
  CMod.mk' IntMod.cops r m

/-- list_elements.cpp:408-429. -/
def fp_polymod_An_list (dflt : CMod IntMod) (m : CPoly IntMod) (n : Int) : Res (TMat (CMod IntMod)) := do
  let c0 ← rd m.coeffs 0
  let q ← int_power c0.modulus m.degree
  an_list dflt q n (fp_polymod_list dflt m .all)

/-- list_elements.cpp:438-481. -/
def fp_polymod_Pn_list (dflt : CMod IntMod) (m : CPoly IntMod) (n : Int) : Res (TMat (CMod IntMod)) := do
  let c0 ← rd m.coeffs 0
  let q ← int_power c0.modulus m.degree
  pn_list dflt q n (fp_polymod_list dflt m .all) (fp_static_psub 0 m) (fp_static_psub 1 m)

end Lists
end Spffl
