/-
Model of spffl/factorization/fp_poly_factor.cpp, f2n_poly_factor.cpp, fp_poly_totient.cpp, f2n_poly_totient.cpp
and of the polynomial members they use that are not shared by all coefficient-array classes: pth_root,
square_root and increment.

The two factorization files contain the same code after renaming, except for the number of field elements, the
way the constants `c` are enumerated, the root taken of a polynomial with zero derivative and the exponent that
goes with it.  These are the fields of `FCtx`.  Line numbers refer to fp_poly_factor.cpp, then (after the slash)
to f2n_poly_factor.cpp.  The mutual recursion is bounded by a fuel argument; the theorems show that degree + 1 is
always enough.
-/
import Verif.Model.CoefInst
import Verif.Model.TMatrix
import Verif.Model.FacInfo

namespace Spffl
open Res

/-- What distinguishes fp_poly_factor.cpp from f2n_poly_factor.cpp. -/
structure FCtx (α : Type) where
  O : CoefOps α
  /-- `coeffs[0]` of a default constructed polynomial -/
  invalid : α
  /-- number of field elements, read off the polynomial: `p`; `1 << m.find_degree()` -/
  q : CPoly α → Res Int
  /-- the constant polynomial subtracted from `h` for loop index `c` -/
  cst : CPoly α → Int → Res (CPoly α)
  /-- `pth_root`; `square_root` -/
  root : CPoly α → Res (Option (CPoly α))
  /-- multiplicity that goes with the root: `p`; 2 -/
  rexp : CPoly α → Res Int
  /-- `increment` -/
  incr : CPoly α → Res (CPoly α)

namespace CFac
variable {α : Type} (X : FCtx α)

/-- fp_poly_t.cpp:15-20, f2n_poly_t.cpp:15-20: default constructor. -/
def dfltPoly : CPoly α := ⟨0, [X.invalid]⟩

/-- 257-265 / 267-275. -/
def from_vector (v : TVec α) (n : Nat) : Res (CPoly α) := do
  let v0 ← TVec.get v 0
  let z ← X.O.sub v0 v0
  let f ← CPoly.set_coeff X.O (dfltPoly X) 0 z
  forUp 0 n f fun i f => do
    let c ← TVec.get v i
    CPoly.set_coeff X.O f ((n - 1 - i : Nat) : Int) c

/-- `f /= f.get_coeff(f.find_degree())` -/
def monic (f : CPoly α) : Res (CPoly α) := do
  let c ← CPoly.get_coeff X.O f f.degree
  CPoly.sdiv X.O f c

/-- 123-126 / 128-131: `x^q` modulo `f`. -/
def powX (f x : CPoly α) (q : Int) : Res (CPoly α) :=
  forUp 1 q.toNat x fun _ xp => do
    let t ← CPoly.mul X.O xp x
    CPoly.mod X.O t f

/-- 142-150 / 147-155: columns from `x^(qj) mod f`. -/
def fillB (f xp xpi : CPoly α) (n : Nat) (BI : TMat α) : Res (TMat α × CPoly α) :=
  forUp 0 n (BI, xpi) fun j s => do
    let BI ← forUp 0 n s.1 fun i BI => TMat.cput BI (n - 1 - i) (n - 1 - j) (CPoly.get_coeff X.O s.2 i)
    let t ← CPoly.mul X.O s.2 xp
    let t ← CPoly.mod X.O t f
    ok (BI, t)

/-- 157-159 / 162-164. -/
def subI (one : α) (n : Nat) (BI : TMat α) : Res (TMat α) :=
  forUp 0 n BI fun i BI => TMat.cput BI i i (do
    let x ← BI.get i i
    X.O.sub x one)

/-- 207-222 / 212-232: constants from `c` on, `k` left; the first proper divisor of `f` found. -/
def cLoop (f h : CPoly α) : Nat → Nat → Res (Option (CPoly α))
  | 0, _ => ok none
  | k + 1, c => do
    let kc ← X.cst f c
    let hc ← CPoly.sub X.O h kc
    let f1 ← CPoly.gcd X.O f hc
    if 0 < f1.degree ∧ f1.degree < f.degree then ok (some f1) else cLoop f h k (c + 1)

/-- 196-223 / 201-233: basis rows from `row` on, `k` left. -/
def rowLoop (f : CPoly α) (n : Nat) (q : Int) (basis : TMat α) : Nat → Nat → Res (Option (CPoly α))
  | 0, _ => ok none
  | k + 1, row => do
    let v ← TMat.row basis row
    let h ← from_vector X v n
    let b ← CPoly.eqInt X.O h 1
    if b then rowLoop f n q basis k (row + 1)
    else do
      let r ← cLoop X f h q.toNat 0
      match r with
      | some f1 => ok (some f1)
      | none => rowLoop f n q basis k (row + 1)

/-- 247-253 / 257-263; `rec` is the recursive call. -/
def insertSplit (rec : CPoly α → FacInfo (CPoly α) → Res (FacInfo (CPoly α))) (recurse : Bool) (dimker : Nat)
    (f1 f2 : CPoly α) (fi : FacInfo (CPoly α)) : Res (FacInfo (CPoly α)) :=
  if dimker = 2 then do
    let fi ← FacInfo.insert_factor (CPoly.ops X.O) fi f1 1
    FacInfo.insert_factor (CPoly.ops X.O) fi f2 1
  else if !recurse then do
    let fi ← FacInfo.insert_factor (CPoly.ops X.O) fi f1 1
    FacInfo.insert_factor (CPoly.ops X.O) fi f2 1
  else do
    let fi ← rec f1 fi
    rec f2 fi

/-- 195-254 / 200-264. -/
def splitRows (rec : CPoly α → FacInfo (CPoly α) → Res (FacInfo (CPoly α))) (recurse : Bool) (f : CPoly α)
    (n dimker : Nat) (q : Int) (basis : TMat α) (fi : FacInfo (CPoly α)) : Res (FacInfo (CPoly α)) := do
  let got ← rowLoop X f n q basis dimker 0
  match got with
  | none => throw
  | some f1 => do
    let f2 ← CPoly.div X.O f f1
    let f1 ← monic X f1
    let f2 ← monic X f2
    insertSplit X rec recurse dimker f1 f2 fi

/-- 179-254 / 184-264. -/
def splitByKernel (rec : CPoly α → FacInfo (CPoly α) → Res (FacInfo (CPoly α))) (recurse : Bool) (f : CPoly α)
    (n dimker : Nat) (q : Int) (zero one : α) (BI : TMat α) (fi : FacInfo (CPoly α)) : Res (FacInfo (CPoly α)) := do
  let got ← TMat.get_kernel_basis X.O.tops BI zero one
  match got with
  | none => throw
  | some basis =>
    if basis.num_rows ≠ dimker then throw
    else splitRows X rec recurse f n dimker q basis fi

/-- 111-254 / 114-264. -/
def berlekamp (rec : CPoly α → FacInfo (CPoly α) → Res (FacInfo (CPoly α))) (recurse : Bool) (f : CPoly α)
    (fi : FacInfo (CPoly α)) : Res (FacInfo (CPoly α)) := do
  let c0 ← rd f.coeffs 0
  let q ← X.q f
  let zero ← X.O.psub c0 0
  let one ← X.O.psub c0 1
  let x ← CPoly.linear X.O one zero
  let xpi ← CPoly.const X.O one
  let xp ← powX X f x q
  let BI ← TMat.alloc X.O.tops f.degree f.degree
  if f.degree < 2 then FacInfo.insert_factor (CPoly.ops X.O) fi f 1
  else do
    let s ← fillB X f xp xpi f.degree BI
    let BI ← subI X one f.degree s.1
    let BI ← TMat.row_echelon_form X.O.tops BI
    let rank ← TMat.get_rank_rr X.O.tops BI
    let dimker := f.degree - rank
    if dimker = 1 then FacInfo.insert_factor (CPoly.ops X.O) fi f 1
    else splitByKernel X rec recurse f f.degree dimker q zero one BI fi

/-- 78-92 / 78-97: the derivative is zero. -/
def rootCase (rec : CPoly α → FacInfo (CPoly α) → Res (FacInfo (CPoly α))) (f : CPoly α) (fi : FacInfo (CPoly α)) :
    Res (FacInfo (CPoly α)) := do
  let p ← X.rexp f
  let s ← X.root f
  match s with
  | none => throw
  | some s => do
    let sfi ← rec s FacInfo.empty
    if 0 < f.degree then do
      let sfi ← FacInfo.exp_all (CPoly.ops X.O) sfi p
      FacInfo.merge (CPoly.ops X.O) fi sfi
    else FacInfo.merge (CPoly.ops X.O) fi sfi

/-- 55-105 / 55-108. -/
def pre_berlekamp (recurse : Bool) : Nat → CPoly α → FacInfo (CPoly α) → Res (FacInfo (CPoly α))
  | 0, _, _ => timeout
  | k + 1, f, fi => do
    let d ← CPoly.deriv X.O f
    let g ← CPoly.gcd X.O f d
    let g0 ← CPoly.eqInt X.O g 0
    if g0 then do
      let f0 ← CPoly.eqInt X.O f 0
      if !f0 then throw else FacInfo.insert_factor (CPoly.ops X.O) fi f 1
    else if g.degree = 0 then berlekamp X (pre_berlekamp recurse k) recurse f fi
    else do
      let d0 ← CPoly.eqInt X.O d 0
      if d0 then rootCase X (pre_berlekamp recurse k) f fi
      else do
        let q ← CPoly.div X.O f g
        let g ← monic X g
        let q ← monic X q
        let fi ← pre_berlekamp recurse k g fi
        pre_berlekamp recurse k q fi

/-- 42-51 / 41-51 -/
def factorLead (f : CPoly α) (zero one : α) : Res (FacInfo (CPoly α)) := do
  let leader ← CPoly.get_coeff X.O f f.degree
  let b0 ← X.O.eq leader zero
  let b1 ← X.O.eq leader one
  if !b0 && !b1 then do
    let l ← CPoly.const X.O leader
    let fi ← FacInfo.insert_unit (CPoly.ops X.O) FacInfo.empty l
    let f ← CPoly.sdiv X.O f leader
    pre_berlekamp X true (f.degree + 1) f fi
  else pre_berlekamp X true (f.degree + 1) f FacInfo.empty

/-- 28-52 / 28-52. -/
def factor (f : CPoly α) : Res (FacInfo (CPoly α)) := do
  let f ← CPoly.copy X.O f
  let c0 ← rd f.coeffs 0
  let zero ← X.O.psub c0 0
  let one ← X.O.psub c0 1
  if f.degree = 0 then FacInfo.insert_unit (CPoly.ops X.O) FacInfo.empty f
  else factorLead X f zero one

/-- 268-294 / 318-345. -/
def is_irreducible (f : CPoly α) : Res Bool :=
  if f.degree = 0 then ok false
  else if f.degree = 1 then ok true
  else do
    let g ← monic X f
    let fi ← pre_berlekamp X false (g.degree + 1) g FacInfo.empty
    let c ← FacInfo.get_num_factors fi
    ok (c == 1)

/-- 309-317 / 363-370, `k` iterations allowed -/
def findLoop (zero : α) (degree : Int) : Nat → CPoly α → Res (CPoly α)
  | 0, _ => timeout
  | k + 1, rv =>
    if (rv.degree : Int) = degree then do
      let c ← CPoly.get_coeff X.O rv 0
      let z ← X.O.eq c zero
      if z then do
        let rv ← X.incr rv
        findLoop zero degree k rv
      else do
        let b ← is_irreducible X rv
        if b then ok rv
        else do
          let rv ← X.incr rv
          findLoop zero degree k rv
    else throw

/-- 298-326 / 349-379.  `zero` and `one` are constructed from the caller's modulus; the loop visits at most the
`q^degree` monic polynomials of the degree (`q` is only used for that bound). -/
def find_irr (zero one : α) (q : Nat) (degree : Int) : Res (CPoly α) := do
  let rv ← CPoly.const X.O zero
  let rv ← CPoly.set_coeff X.O rv degree one
  if degree < 1 then throw
  else findLoop X zero degree (q ^ degree.toNat + 1) rv

/-- fp_poly_totient.cpp:50-53, f2n_poly_totient.cpp:52-55 for one factor. -/
def totientStep (q : Int) (p : CPoly α × Int) (rv : Int) : Res Int := do
  let e1 ← isub p.2 1
  let sh ← imul p.1.degree e1
  let a ← int_power q sh
  let b ← int_power q p.1.degree
  let b ← isub b 1
  let c ← imul a b
  imul rv c

/-- fp_poly_totient.cpp:43-57, f2n_poly_totient.cpp:43-59. -/
def totient (f : CPoly α) : Res Int := do
  let q ← X.q f
  let fi ← factor X f
  fi.facs.foldlM (fun rv p => totientStep q p rv) 1

/-- f2n_poly_factor.cpp:301-311: `-c0 / c1` for every linear factor. -/
def rootsOf : List (CPoly α × Int) → Res (List α)
  | [] => ok []
  | p :: l =>
    if p.1.degree = 1 then do
      let c1 ← CPoly.get_coeff X.O p.1 1
      let c0 ← CPoly.get_coeff X.O p.1 0
      let n ← X.O.neg c0
      let r ← X.O.div n c1
      let rs ← rootsOf l
      ok (r :: rs)
    else rootsOf l

/-- f2n_poly_factor.cpp:278-315.  The loop that only counts the linear factors is the length of the result. -/
def roots (f : CPoly α) : Res (Option (List α)) := do
  let fi ← factor X f
  let rs ← rootsOf X fi.facs
  if rs.length = 0 then ok none else ok (some rs)

end CFac

/-! ### fp_poly_t -/
namespace FpP

/-- fp_poly_t.cpp:552-559: coefficients `si + j` for `j` from the given value on, `k` left. -/
def gapLoop (a : CPoly IntMod) (zero : IntMod) (si : Nat) : Nat → Nat → Res Bool
  | 0, _ => ok true
  | k + 1, j =>
    if a.degree < si + j then ok true
    else do
      let c ← rd a.coeffs (si + j)
      let e ← IntMod.eq c zero
      if e then gapLoop a zero si k (j + 1) else ok false

/-- fp_poly_t.cpp:550-560, `k` iterations allowed. -/
def pthLoop (a : CPoly IntMod) (zero : IntMod) (p : Nat) : Nat → Nat → Nat → List IntMod → Res (Option (List IntMod))
  | 0, _, _, _ => timeout
  | k + 1, si, di, cs =>
    if a.degree < si then ok (some cs)
    else do
      let c ← rd a.coeffs si
      let cs ← wr cs di c
      let b ← gapLoop a zero si (p - 1) 1
      if b then pthLoop a zero p k (si + p) (di + 1) cs else ok none

/-- coeffs[0] of a default constructed fp_poly_t: `intmod_t(-1, 1)`. -/
def invalid : IntMod := ⟨0, 1⟩

/-- fp_poly_t.cpp:538-564. -/
def pth_root (a : CPoly IntMod) : Res (Option (CPoly IntMod)) := do
  let c0 ← rd a.coeffs 0
  let zero ← IntMod.mk' 0 c0.modulus
  let out ← CPoly.set_coeff IntMod.cops ⟨0, [invalid]⟩ a.degree zero
  let cs ← forDown a.degree 0 out.coeffs fun di cs => wr cs di zero
  let r ← pthLoop a zero c0.modulus.toNat (a.degree + 2) 0 0 cs
  match r with
  | none => ok none
  | some cs => do
    let s ← CPoly.recompute_degree IntMod.cops ⟨out.degree, cs⟩
    ok (some s)

/-- fp_poly_t.cpp:736-745: coefficients from `i` on, `k` left; `none` when all of them have wrapped to zero. -/
def incrLoop (zero one : IntMod) (p : Int) : Nat → Nat → List IntMod → Res (Bool × List IntMod)
  | 0, _, cs => ok (false, cs)
  | k + 1, i, cs => do
    let c ← rd cs i
    let pm ← isub p 1
    if c.residue < pm then do
      let c ← IntMod.add c one
      let cs ← wr cs i c
      ok (true, cs)
    else do
      let cs ← wr cs i zero
      incrLoop zero one p k (i + 1) cs

/-- fp_poly_t.cpp:732-746. -/
def increment (a : CPoly IntMod) : Res (CPoly IntMod) := do
  let c0 ← rd a.coeffs 0
  let zero ← IntMod.mk' 0 c0.modulus
  let one ← IntMod.mk' 1 c0.modulus
  let s ← incrLoop zero one c0.modulus (a.degree + 1) 0 a.coeffs
  if s.1 then ok ⟨a.degree, s.2⟩
  else CPoly.set_coeff IntMod.cops ⟨a.degree, s.2⟩ ((a.degree + 1 : Nat) : Int) one

def ctx : FCtx IntMod where
  O := IntMod.cops
  invalid := invalid
  q := fun f => do let c ← rd f.coeffs 0; ok c.modulus
  cst := fun f c => CPoly.psub IntMod.cops f c
  root := pth_root
  rexp := fun f => do let c ← rd f.coeffs 0; ok c.modulus
  incr := increment

/-- fp_poly_factor.cpp:28-52. -/
def factor (f : CPoly IntMod) := CFac.factor ctx f
/-- fp_poly_factor.cpp:268-294. -/
def is_irreducible (f : CPoly IntMod) := CFac.is_irreducible ctx f
/-- fp_poly_factor.cpp:298-326. -/
def find_irr (p degree : Int) : Res (CPoly IntMod) := do
  let zero ← IntMod.mk' 0 p
  let one ← IntMod.mk' 1 p
  CFac.find_irr ctx zero one p.toNat degree
/-- fp_poly_totient.cpp:43-57. -/
def totient (f : CPoly IntMod) := CFac.totient ctx f

end FpP

/-! ### f2n_poly_t -/
namespace F2nP

/-- coeffs[0] of a default constructed f2n_poly_t: `f2_polymod_t(f2_poly_t(0), f2_poly_t(1))`. -/
def invalid : F2Mod := ⟨F2P.zero, F2P.one⟩

/-- f2n_poly_t.cpp:570-578, `k` iterations allowed. -/
def sqrtLoop (a : CPoly F2Mod) (zero : F2Mod) (pow : Int) : Nat → Nat → Nat → List F2Mod → Res (Option (List F2Mod))
  | 0, _, _, _ => timeout
  | k + 1, si, di, cs =>
    if a.degree < si then ok (some cs)
    else do
      let c ← rd a.coeffs si
      let r ← F2Mod.exp c pow
      let cs ← wr cs di r
      if a.degree < si + 1 then ok (some cs)
      else do
        let c ← rd a.coeffs (si + 1)
        let e ← F2Mod.eq c zero
        if e then sqrtLoop a zero pow k (si + 2) (di + 1) cs else ok none

/-- f2n_poly_t.cpp:557-582. -/
def square_root (a : CPoly F2Mod) : Res (Option (CPoly F2Mod)) := do
  let c0 ← rd a.coeffs 0
  let zero ← F2Mod.mk' (F2P.ofInt 0) c0.modulus
  let n ← F2P.find_degree c0.modulus
  let n1 ← isub n 1
  let pow ← ishl 1 n1
  let out ← CPoly.set_coeff F2Mod.cops ⟨0, [invalid]⟩ a.degree zero
  let cs ← forDown a.degree 0 out.coeffs fun di cs => wr cs di zero
  let r ← sqrtLoop a zero pow (a.degree + 2) 0 0 cs
  match r with
  | none => ok none
  | some cs => do
    let s ← CPoly.recompute_degree F2Mod.cops ⟨out.degree, cs⟩
    ok (some s)

/-- f2n_poly_t.cpp:716-725: coefficients from `i` on, `k` left. -/
def incrLoop (m max : F2P) (m0 : F2Mod) : Nat → Nat → List F2Mod → Res (Bool × List F2Mod)
  | 0, _, cs => ok (false, cs)
  | k + 1, i, cs => do
    let c ← rd cs i
    let r ← F2P.increment c.residue
    let b ← F2P.ne r max
    if b then do
      let c ← F2Mod.mk' r m
      let cs ← wr cs i c
      ok (true, cs)
    else do
      let cs ← wr cs i m0
      incrLoop m max m0 k (i + 1) cs

/-- f2n_poly_t.cpp:708-727. -/
def increment (a : CPoly F2Mod) : Res (CPoly F2Mod) := do
  let c0 ← rd a.coeffs 0
  let d ← F2P.find_degree c0.modulus
  let max ← F2P.set_bit F2P.zero d
  let m0 ← F2Mod.mk' F2P.zero c0.modulus
  let m1 ← F2Mod.mk' F2P.one c0.modulus
  let s ← incrLoop c0.modulus max m0 (a.degree + 1) 0 a.coeffs
  if s.1 then ok ⟨a.degree, s.2⟩
  else CPoly.set_coeff F2Mod.cops ⟨a.degree, s.2⟩ ((a.degree + 1 : Nat) : Int) m1

def ctx : FCtx F2Mod where
  O := F2Mod.cops
  invalid := invalid
  q := fun f => do let c ← rd f.coeffs 0; let d ← F2P.find_degree c.modulus; ishl 1 d
  cst := fun f c => do
    let c0 ← rd f.coeffs 0
    let r ← F2Mod.mk' (F2P.from_base_rep (BitVec.ofInt 64 c)) c0.modulus
    CPoly.const F2Mod.cops r
  root := square_root
  rexp := fun _ => ok 2
  incr := increment

/-- f2n_poly_factor.cpp:28-52. -/
def factor (f : CPoly F2Mod) := CFac.factor ctx f
/-- f2n_poly_factor.cpp:278-315. -/
def roots (f : CPoly F2Mod) := CFac.roots ctx f
/-- f2n_poly_factor.cpp:318-345. -/
def is_irreducible (f : CPoly F2Mod) := CFac.is_irreducible ctx f
/-- f2n_poly_factor.cpp:349-379. -/
def find_irr (m : F2P) (degree : Int) : Res (CPoly F2Mod) := do
  let zero ← F2Mod.mk' F2P.zero m
  let one ← F2Mod.mk' F2P.one m
  let d ← F2P.find_degree m
  CFac.find_irr ctx zero one (2 ^ d) degree
/-- f2n_poly_totient.cpp:43-59. -/
def totient (f : CPoly F2Mod) := CFac.totient ctx f

end F2nP
end Spffl
