/-
Model of spffl/q_cyclotomic: cyclotomic polynomials over Q (cyclo_poly.cpp) and their reduction to finite
fields (qff.cpp).

`memo_flags` and `memo_data` (cyclo_poly.cpp:17-19) are one list of 17 optional polynomials, passed in and
returned.  Copies of polynomials by assignment are value copies.
-/
import Verif.Model.CoefInst
import Verif.Model.IntRat
import Verif.Model.CMod

namespace Spffl
open Res

namespace Cyclo

abbrev QPoly := CPoly IntRat
abbrev Memo := List (Option QPoly)

/-- cyclo_poly.cpp:18-19: no flag is set at program start. -/
def Memo.init : Memo := List.replicate 17 none

/-- cyclo_poly.cpp:35 and 57: `(n <= CYCLO_MEMO_MAX) && memo_flags[n]`. -/
def lookup (m : Memo) (n : Nat) : Res (Option QPoly) := if n ≤ 16 then rd m n else ok none

/-- cyclo_poly.cpp:41-44 and 71-74. -/
def remember (m : Memo) (n : Nat) (q : QPoly) : Res Memo := if n ≤ 16 then wr m n (some q) else ok m

/-- q_poly_t.cpp:18-23 and 26-31 with a literal argument: `q_poly_t(0)`. -/
def qzero : Res QPoly := do
  let z ← IntRat.ofInt 0
  CPoly.const IntRat.cops z

/-- q_poly_t.cpp:56-62. -/
def binomial (ci : IntRat) (i : Int) (cj : IntRat) (j : Int) : Res QPoly := do
  let rv ← qzero
  let rv ← CPoly.set_coeff IntRat.cops rv i ci
  CPoly.set_coeff IntRat.cops rv j cj

/-- q_poly_t.cpp:283-355 called as `rv.quot_and_rem(dth, rv, rem)` (cyclo_poly.cpp:63): the quotient is
written to the object being divided.  In the two early returns (lines 292-305) the remainder is then copied
from the object just overwritten. -/
def quotInPlace (a b : QPoly) : Res (QPoly × QPoly) := do
  let s ← CPoly.quot_and_rem IntRat.cops a b
  let c0 ← rd a.coeffs 0
  let zero ← IntRat.sub c0 c0
  let az ← CPoly.eqConst IntRat.cops a zero
  if az then ok (s.1, s.1)
  else if a.degree < b.degree then ok (s.1, s.1)
  else ok s

/-- cyclo_poly.cpp:57-61: the divisor, remembered or computed. -/
def fetch (rec : Int → Memo → Res (QPoly × Memo)) (d : Nat) (m : Memo) : Res (QPoly × Memo) := do
  let e ← lookup m d
  match e with
  | some q => ok (q, m)
  | none => rec d m

/-- cyclo_poly.cpp:52-69: one round of the loop over `d`; `rec` is the recursive call. -/
def step (rec : Int → Memo → Res (QPoly × Memo)) (n : Int) (d : Nat) (s : QPoly × Memo) : Res (QPoly × Memo) := do
  let r ← imod n d
  if r ≠ 0 then ok s
  else do
    let t ← fetch rec d s.2
    let qr ← quotInPlace s.1 t.1
    let zero ← qzero
    let z ← CPoly.eq IntRat.cops qr.2 zero
    if z then ok (qr.1, t.2) else throw

/-- cyclo_poly.cpp:22-77.  The recursion is on proper divisors; the fuel `n + 1` is shown to suffice. -/
def getCyclo : Nat → Int → Memo → Res (QPoly × Memo)
  | 0, _, _ => timeout
  | k + 1, n, m =>
    if n < 1 then throw
    else do
      let e ← lookup m n.toNat
      match e with
      | some q => ok (q, m)
      | none =>
        if n = 1 then do
          let c1 ← IntRat.ofInt 1
          let c0 ← IntRat.ofInt (-1)
          let rv ← CPoly.linear IntRat.cops c1 c0
          let m ← remember m n.toNat rv
          ok (rv, m)
        else do
          let c1 ← IntRat.ofInt 1
          let c0 ← IntRat.ofInt (-1)
          let rv ← binomial c1 n c0 0
          let s ← forUp 1 n.toNat (rv, m) (step (getCyclo k) n)
          let m ← remember s.2 n.toNat s.1
          ok (s.1, m)

/-- `get_cyclo_qpoly` -/
def get_cyclo_qpoly (n : Int) (m : Memo) : Res (QPoly × Memo) := getCyclo (n.toNat + 1) n m

/-- qff.cpp:6-10 with bit_t.h:29 and 67-74. -/
def bit_from_rat (r : IntRat) : Res Bool :=
  if r.denom % 2 = 0 then throw else ok (decide (r.numer % 2 = 1))

/-- qff.cpp:13-19. -/
def intmod_from_rat (r : IntRat) (p : Int) : Res IntMod := do
  let n ← IntMod.mk' r.numer p
  let d ← IntMod.mk' r.denom p
  IntMod.cops.div n d

/-- qff.cpp:22-30. -/
def f2_poly_from_q_poly (q : QPoly) : Res F2P :=
  forDown (q.degree + 1) 0 F2P.zero fun i rv => do
    let c ← CPoly.get_coeff IntRat.cops q i
    let b ← bit_from_rat c
    F2P.set_coeff rv i b

/-- fp_poly_t.cpp:16-21: the default constructor. -/
def fpDefault : Res (CPoly IntMod) := do
  let c ← IntMod.mk' (-1) 1
  ok ⟨0, [c]⟩

/-- qff.cpp:33-41. -/
def fp_poly_from_qpoly (q : QPoly) (p : Int) : Res (CPoly IntMod) := do
  let rv ← fpDefault
  forDown (q.degree + 1) 0 rv fun i rv => do
    let c ← CPoly.get_coeff IntRat.cops q i
    let m ← intmod_from_rat c p
    CPoly.set_coeff IntMod.cops rv i m

/-- f2n_poly_t.cpp:16-21: the default constructor. -/
def f2nDefault : Res (CPoly F2Mod) := do
  let c ← F2Mod.mk' F2P.zero F2P.one
  ok ⟨0, [c]⟩

/-- qff.cpp:44-58. -/
def f2n_poly_from_qpoly (q : QPoly) (im : F2P) : Res (CPoly F2Mod) := do
  let rv ← f2nDefault
  forDown (q.degree + 1) 0 rv fun i rv => do
    let c ← CPoly.get_coeff IntRat.cops q i
    let m ← intmod_from_rat c 2
    let c ← F2Mod.prime_subfield_element m.residue im
    CPoly.set_coeff F2Mod.cops rv i c

/-- fp_polymod_t.cpp:51-53: the static `prime_subfield_element`. -/
def fpnPsub (v : Int) (im : CPoly IntMod) : Res (CMod IntMod) := do
  let r ← CPoly.psub IntMod.cops im v
  CMod.mk' IntMod.cops r im

/-- qff.cpp:61-78.  `im.get_characteristic()` is the modulus of coefficient 0 (fp_poly_t.cpp:123-125). -/
def fpn_poly_from_qpoly (q : QPoly) (im : CPoly IntMod) : Res (CPoly (CMod IntMod)) := do
  let c0 ← rd im.coeffs 0
  let p := c0.modulus
  let z0 ← IntMod.mk' 0 p
  let z1 ← CPoly.const IntMod.cops z0
  let z2 ← CMod.mk' IntMod.cops z1 im
  let rv ← CPoly.const FpMod.cops z2
  forDown (q.degree + 1) 0 rv fun i rv => do
    let c ← CPoly.get_coeff IntRat.cops q i
    let m ← intmod_from_rat c p
    let c ← fpnPsub m.residue im
    CPoly.set_coeff FpMod.cops rv i c

/-- cyclo_poly.cpp:80-84. -/
def get_cyclo_f2_poly (n : Int) (m : Memo) : Res (F2P × Memo) := do
  let s ← get_cyclo_qpoly n m
  let r ← f2_poly_from_q_poly s.1
  ok (r, s.2)

/-- cyclo_poly.cpp:87-91. -/
def get_cyclo_fp_poly (n p : Int) (m : Memo) : Res (CPoly IntMod × Memo) := do
  let s ← get_cyclo_qpoly n m
  let r ← fp_poly_from_qpoly s.1 p
  ok (r, s.2)

/-- cyclo_poly.cpp:94-99. -/
def get_cyclo_f2n_poly (n : Int) (im : F2P) (m : Memo) : Res (CPoly F2Mod × Memo) := do
  let s ← get_cyclo_qpoly n m
  let r ← f2n_poly_from_qpoly s.1 im
  ok (r, s.2)

/-- cyclo_poly.cpp:102-107. -/
def get_cyclo_fpn_poly (n : Int) (im : CPoly IntMod) (m : Memo) : Res (CPoly (CMod IntMod) × Memo) := do
  let s ← get_cyclo_qpoly n m
  let r ← fpn_poly_from_qpoly s.1 im
  ok (r, s.2)

end Cyclo
end Spffl
