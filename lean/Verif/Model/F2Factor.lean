/-
Model of spffl/factorization/f2_poly_factor.cpp and f2_poly_totient.cpp.

The recursion f2_poly_pre_berlekamp / f2_poly_berlekamp is bounded by a fuel argument; every recursive call has
smaller degree, and the theorems show that degree + 1 is always enough.  `tm` is the value of the mask
expression in bit_vector_t's trim (see Model/BitVector).
-/
import Verif.Model.F2Poly
import Verif.Model.FacInfo
import Verif.Model.BitMatrix

namespace Spffl
open Res
namespace F2P

/-- f2_poly_t as an `element_type` of tfacinfo. -/
def eltOps : EltOps F2P where
  add := add
  sub := sub
  mul := mul
  div := div
  neg := neg
  eq := eq
  lt := lt

/-- f2_poly_factor.cpp:306-315. -/
def from_vector (v : BV) (n : Nat) : Res F2P :=
  forUp 0 n zero fun i f => do
    let b ← BV.get v (n - 1 - i)
    if b then set_bit f i else ok f

/-- f2_poly_factor.cpp:166-171: columns from `x^(2j) mod f`. -/
def fillB (f x2 : F2P) (n : Nat) (BI : BM) : Res (BM × F2P) :=
  forUp 0 n (BI, one) fun j s => do
    let BI ← forUp 0 n s.1 fun i BI => do
      let b ← bit_at s.2 i
      BM.cput BI (n - 1 - i) (n - 1 - j) b
    let t ← mul s.2 x2
    let t ← mod t f
    ok (BI, t)

/-- f2_poly_factor.cpp:178-180. -/
def subI (n : Nat) (BI : BM) : Res BM := forUp 0 n BI fun i BI => BM.ctoggle BI i i

/-- f2_poly_factor.cpp:256-264: throws unless `h^2 = h` and `hc^2 = hc` modulo `f`. -/
def checkH (f h hc : F2P) : Res Unit := do
  let t ← mul h h
  let check1 ← mod t f
  let t ← mul hc hc
  let check2 ← mod t f
  let b1 ← ne h check1
  if b1 then throw
  else do
    let b2 ← ne hc check2
    if b2 then throw else ok ()

/-- f2_poly_factor.cpp:282-297; `rec` is the recursive call. -/
def insertSplit (rec : F2P → FacInfo F2P → Res (FacInfo F2P)) (recurse : Bool) (dimker : Nat) (f1 f2 : F2P)
    (fi : FacInfo F2P) : Res (FacInfo F2P) :=
  if dimker = 2 then do
    let fi ← FacInfo.insert_factor eltOps fi f1 1
    FacInfo.insert_factor eltOps fi f2 1
  else if !recurse then do
    let fi ← FacInfo.insert_factor eltOps fi f1 1
    FacInfo.insert_factor eltOps fi f2 1
  else do
    let fi ← rec f1 fi
    rec f2 fi

/-- f2_poly_factor.cpp:251-302: basis rows from `row` on, `k` left. -/
def rowLoop (rec : F2P → FacInfo F2P → Res (FacInfo F2P)) (recurse : Bool) (f : F2P) (n dimker : Nat) (basis : BM)
    (fi : FacInfo F2P) : Nat → Nat → Res (FacInfo F2P)
  | 0, _ => throw
  | k + 1, row => do
    let v ← BM.row basis row
    let h ← from_vector v n
    let hc ← add h one
    checkH f h hc
    let f1 ← gcd f h
    let f2 ← gcd f hc
    let b1 ← eqInt f1 1
    if b1 then rowLoop rec recurse f n dimker basis fi k (row + 1)
    else do
      let b2 ← eqInt f2 1
      if b2 then rowLoop rec recurse f n dimker basis fi k (row + 1)
      else insertSplit rec recurse dimker f1 f2 fi

/-- f2_poly_factor.cpp:204-302. -/
def splitByKernel (tm : TrimMask) (rec : F2P → FacInfo F2P → Res (FacInfo F2P)) (recurse : Bool) (f : F2P)
    (n dimker : Nat) (BI : BM) (fi : FacInfo F2P) : Res (FacInfo F2P) := do
  let got ← BM.get_kernel_basis tm BI
  match got with
  | none => throw
  | some basis =>
    if basis.num_rows ≠ dimker then throw
    else rowLoop rec recurse f n dimker basis fi dimker 0

/-- f2_poly_factor.cpp:141-303. -/
def berlekamp (tm : TrimMask) (rec : F2P → FacInfo F2P → Res (FacInfo F2P)) (recurse : Bool) (f : F2P)
    (fi : FacInfo F2P) : Res (FacInfo F2P) := do
  let n ← find_degree f
  let x := ofInt2 1 0
  let t ← mul x x
  let x2 ← mod t f
  let BI ← BM.alloc n n
  if n < 2 then FacInfo.insert_factor eltOps fi f 1
  else do
    let s ← fillB f x2 n BI
    let BI ← subI n s.1
    let BI ← BM.row_echelon_form BI
    let rank ← BM.get_rank_rr BI
    let dimker := n - rank
    if dimker = 1 then FacInfo.insert_factor eltOps fi f 1
    else splitByKernel tm rec recurse f n dimker BI fi

/-- f2_poly_factor.cpp:62-79: the input is a perfect square. -/
def squareCase (rec : F2P → FacInfo F2P → Res (FacInfo F2P)) (f : F2P) (fi : FacInfo F2P) : Res (FacInfo F2P) := do
  let s ← square_root f
  match s with
  | none => throw
  | some s => do
    let sfi ← rec s FacInfo.empty
    let deg ← find_degree f
    if 0 < deg then do
      let sfi ← FacInfo.exp_all eltOps sfi 2
      FacInfo.merge eltOps fi sfi
    else FacInfo.merge eltOps fi sfi

/-- f2_poly_factor.cpp:39-88. -/
def pre_berlekamp (tm : TrimMask) (recurse : Bool) : Nat → F2P → FacInfo F2P → Res (FacInfo F2P)
  | 0, _, _ => timeout
  | k + 1, f, fi => do
    let d ← deriv f
    let g ← gcd f d
    let g0 ← eqInt g 0
    if g0 then do
      let f0 ← eqInt f 0
      if !f0 then throw else FacInfo.insert_factor eltOps fi f 1
    else do
      let g1 ← eqInt g 1
      if g1 then berlekamp tm (pre_berlekamp tm recurse k) recurse f fi
      else do
        let d0 ← eqInt d 0
        if d0 then squareCase (pre_berlekamp tm recurse k) f fi
        else do
          let q ← div f g
          let fi ← pre_berlekamp tm recurse k g fi
          pre_berlekamp tm recurse k q fi

/-- f2_poly_factor.cpp:27-36. -/
def factor (tm : TrimMask) (f : F2P) : Res (FacInfo F2P) := do
  let d ← find_degree f
  if d = 0 then FacInfo.insert_unit eltOps FacInfo.empty f
  else pre_berlekamp tm true (d + 1) f FacInfo.empty

/-- f2_poly_factor.cpp:411-435. -/
def is_irreducible (tm : TrimMask) (f : F2P) : Res Bool := do
  let d ← find_degree f
  if d = 0 then ok false
  else if d = 1 then ok true
  else do
    let fi ← pre_berlekamp tm false (d + 1) f FacInfo.empty
    let c ← FacInfo.get_num_factors fi
    ok (c == 1)

/-- f2_poly_factor.cpp:450-456, `k` iterations allowed -/
def findLoop (tm : TrimMask) (degree : Int) : Nat → F2P → Res F2P
  | 0, _ => timeout
  | k + 1, rv => do
    let d ← find_degree rv
    if (d : Int) = degree then do
      let b ← is_irreducible tm rv
      if b then ok rv
      else do
        let rv ← increment rv
        let rv ← increment rv
        findLoop tm degree k rv
    else throw

/-- f2_poly_factor.cpp:439-466.  The loop visits at most half of the `2^degree` polynomials of the degree. -/
def find_irreducible (tm : TrimMask) (degree : Int) : Res F2P := do
  let rv ← set_bit zero degree
  let rv ← set_bit rv 0
  if degree < 1 then throw
  else findLoop tm degree (2 ^ degree.toNat + 1) rv

/-- f2_poly_totient.cpp:48-53 for one factor. -/
def totientStep (p : F2P × Int) (rv : Int) : Res Int := do
  let di ← find_degree p.1
  let e1 ← isub p.2 1
  let sh ← imul di e1
  let a ← ishl 1 sh
  let b ← ishl 1 di
  let b ← isub b 1
  let c ← imul a b
  imul rv c

/-- f2_poly_totient.cpp:43-56. -/
def totient (tm : TrimMask) (f : F2P) : Res Int := do
  let fi ← factor tm f
  fi.facs.foldlM (fun rv p => totientStep p rv) 1

end F2P
end Spffl
