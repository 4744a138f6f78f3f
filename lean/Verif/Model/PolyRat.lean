/-
Model of spffl/rationals: f2_polyrat_t, fp_polyrat_t and f2n_polyrat_t, quotients of polynomials.  The three classes
have the same text up to the polynomial class; line numbers below are those of fp_polyrat_t.cpp, those of
f2_polyrat_t.cpp are given in brackets where they differ in more than position.  Text input and output are in Model/PolyRatText.lean.
-/
import Verif.Model.CoefInst

namespace Spffl
open Res

/-- What the quotient classes use of a polynomial class `P`. -/
structure RatOps (P : Type) where
  add : P → P → Res P
  sub : P → P → Res P
  mul : P → P → Res P
  div : P → P → Res P
  neg : P → Res P
  gcd : P → P → Res P
  eq : P → P → Res Bool
  lt : P → P → Res Bool
  le : P → P → Res Bool
  gt : P → P → Res Bool
  ge : P → P → Res Bool
  /-- `== 0` -/
  isZero : P → Res Bool
  /-- `prime_subfield_element(v)`; for f2_poly_t the constructor from an `int` -/
  psub : P → Int → Res P

def F2P.rops : RatOps F2P where
  add := F2P.add
  sub := F2P.sub
  mul := F2P.mul
  div := F2P.div
  neg := F2P.neg
  gcd := F2P.gcd
  eq := F2P.eq
  lt := F2P.lt
  le := F2P.le
  gt := F2P.gt
  ge := F2P.ge
  isZero := fun a => F2P.eqInt a 0
  psub := fun _ v => ok (F2P.ofInt v)

def CPoly.rops {α : Type} (O : CoefOps α) : RatOps (CPoly α) where
  add := CPoly.add O
  sub := CPoly.sub O
  mul := CPoly.mul O
  div := CPoly.div O
  neg := CPoly.neg O
  gcd := CPoly.gcd O
  eq := CPoly.eq O
  lt := CPoly.lt O
  le := CPoly.le O
  gt := CPoly.gt O
  ge := CPoly.ge O
  isZero := fun a => CPoly.eqInt O a 0
  psub := CPoly.psub O

structure PRat (P : Type) where
  numer : P
  denom : P
deriving DecidableEq, Repr

namespace PRat
variable {P : Type} (O : RatOps P)

/-- fp_polyrat_t.cpp:354-364. -/
def simplify (a : PRat P) : Res (PRat P) := do
  let z ← O.isZero a.denom
  if z then throw
  else do
    let g ← O.gcd a.numer a.denom
    let n ← O.div a.numer g
    let d ← O.div a.denom g
    ok ⟨n, d⟩

/-- fp_polyrat_t.cpp:16-21. -/
def mk2 (n d : P) : Res (PRat P) := simplify O ⟨n, d⟩

/-- fp_polyrat_t.cpp:24-28 and 68-73. -/
def mk1 (n : P) : Res (PRat P) := do
  let d ← O.psub n 1
  simplify O ⟨n, d⟩

/-- fp_polyrat_t.cpp:80-86. -/
def add (a b : PRat P) : Res (PRat P) := do
  let x ← O.mul a.numer b.denom
  let y ← O.mul a.denom b.numer
  let n ← O.add x y
  let d ← O.mul a.denom b.denom
  simplify O ⟨n, d⟩

/-- fp_polyrat_t.cpp:89-95. -/
def sub (a b : PRat P) : Res (PRat P) := do
  let x ← O.mul a.numer b.denom
  let y ← O.mul a.denom b.numer
  let n ← O.sub x y
  let d ← O.mul a.denom b.denom
  simplify O ⟨n, d⟩

/-- fp_polyrat_t.cpp:98-103. -/
def neg (a : PRat P) : Res (PRat P) := do
  let n ← O.neg a.numer
  ok ⟨n, a.denom⟩

/-- fp_polyrat_t.cpp:106-112. -/
def mul (a b : PRat P) : Res (PRat P) := do
  let n ← O.mul a.numer b.numer
  let d ← O.mul a.denom b.denom
  simplify O ⟨n, d⟩

/-- fp_polyrat_t.cpp:115-121. -/
def div (a b : PRat P) : Res (PRat P) := do
  let n ← O.mul a.numer b.denom
  let d ← O.mul a.denom b.numer
  simplify O ⟨n, d⟩

/-- fp_polyrat_t.cpp:290-300. -/
def eq (a b : PRat P) : Res Bool := do
  let n ← O.eq a.numer b.numer
  if !n then ok false
  else do
    let d ← O.eq a.denom b.denom
    if !d then ok false else ok true

/-- fp_polyrat_t.cpp:308-313 [310-315]: comparison with a polynomial. -/
def eqPoly (a : PRat P) (f : P) : Res Bool := do
  let one ← O.psub a.numer 1
  let d ← O.eq a.denom one
  if !d then ok false else O.eq a.numer f

/-- fp_polyrat_t.cpp:321-338: the cross products are compared. -/
def cross (c : P → P → Res Bool) (a b : PRat P) : Res Bool := do
  let x ← O.mul a.numer b.denom
  let y ← O.mul a.denom b.numer
  c x y

def lt (a b : PRat P) : Res Bool := cross O O.lt a b
def le (a b : PRat P) : Res Bool := cross O O.le a b
def gt (a b : PRat P) : Res Bool := cross O O.gt a b
def ge (a b : PRat P) : Res Bool := cross O O.ge a b

/-- fp_polyrat_t.cpp:124-133. -/
def mod (_a b : PRat P) : Res (PRat P) := do
  let zero ← sub O b b
  let z ← eq O b zero
  if z then throw else ok zero

/-- fp_polyrat_t.cpp:136-174 [140-178]. -/
def exp (a : PRat P) (e : Int) : Res (PRat P) := do
  let z0 ← O.psub a.numer 0
  let zero ← mk1 O z0
  let o0 ← O.psub a.numer 1
  let one ← mk1 O o0
  if e = 0 then do
    let z ← eq O a zero
    if z then throw else ok one
  else if e < 0 then do
    let z ← eq O a zero
    if z then throw
    else do
      let me ← ineg e
      if e = me then throw
      else do
        let xp ← div O one a
        sqMulLoop (mul O) 32 one xp me.toNat
  else sqMulLoop (mul O) 32 one a e.toNat

end PRat
end Spffl
