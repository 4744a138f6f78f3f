/-
Model of spffl/intmath/intrat_t.cpp: rationals with `int` numerator and denominator.
-/
import Verif.Model.IntMath
import Verif.Model.CPoly

namespace Spffl
open Res

/-- intrat_t.h: the data members. -/
structure IntRat where
  numer : Int
  denom : Int
deriving DecidableEq, Repr

namespace IntRat

/-- intrat_t.cpp:334-337: make the denominator positive. -/
def normSign (a : IntRat) : Res IntRat :=
  if a.denom < 0 then do
    let n ← ineg a.numer
    let d ← ineg a.denom
    ok ⟨n, d⟩
  else ok a

/-- intrat_t.cpp:326-341. -/
def simplify (a : IntRat) : Res IntRat :=
  if a.denom = 0 then throw
  else do
    let a ← normSign a
    let g ← int_gcd a.numer a.denom
    let n ← idiv a.numer g
    let d ← idiv a.denom g
    ok ⟨n, d⟩

/-- intrat_t.cpp:19-23. -/
def mk' (n d : Int) : Res IntRat := simplify ⟨n, d⟩

/-- intrat_t.cpp:26-30 and 57-62. -/
def ofInt (n : Int) : Res IntRat := simplify ⟨n, 1⟩

/-- intrat_t.cpp:69-75. -/
def add (a b : IntRat) : Res IntRat := do
  let x ← imul a.numer b.denom
  let y ← imul a.denom b.numer
  let n ← iadd x y
  let d ← imul a.denom b.denom
  simplify ⟨n, d⟩

/-- intrat_t.cpp:78-84. -/
def sub (a b : IntRat) : Res IntRat := do
  let x ← imul a.numer b.denom
  let y ← imul a.denom b.numer
  let n ← isub x y
  let d ← imul a.denom b.denom
  simplify ⟨n, d⟩

/-- intrat_t.cpp:87-91. -/
def neg (a : IntRat) : Res IntRat := do
  let n ← ineg a.numer
  ok ⟨n, a.denom⟩

/-- intrat_t.cpp:94-100. -/
def mul (a b : IntRat) : Res IntRat := do
  let n ← imul a.numer b.numer
  let d ← imul a.denom b.denom
  simplify ⟨n, d⟩

/-- intrat_t.cpp:103-109. -/
def div (a b : IntRat) : Res IntRat := do
  let n ← imul a.numer b.denom
  let d ← imul a.denom b.numer
  simplify ⟨n, d⟩

/-- intrat_t.cpp:253-263. -/
def eq (a b : IntRat) : Res Bool :=
  if a.numer ≠ b.numer then ok false else if a.denom ≠ b.denom then ok false else ok true

/-- intrat_t.cpp:271-276: `operator==(int)`. -/
def eqInt (a : IntRat) (v : Int) : Res Bool :=
  if a.denom ≠ 1 then ok false else ok (a.numer == v)

/-- intrat_t.cpp:282-299: the two cross products that are compared. -/
def cross (a b : IntRat) : Res (Int × Int) := do
  let x ← imul a.numer b.denom
  let y ← imul a.denom b.numer
  ok (x, y)

def lt (a b : IntRat) : Res Bool := do let c ← cross a b; ok (decide (c.1 < c.2))
def le (a b : IntRat) : Res Bool := do let c ← cross a b; ok (decide (c.1 ≤ c.2))
def gt (a b : IntRat) : Res Bool := do let c ← cross a b; ok (decide (c.2 < c.1))
def ge (a b : IntRat) : Res Bool := do let c ← cross a b; ok (decide (c.2 ≤ c.1))

/-- intrat_t.cpp:112-121. -/
def mod (_a b : IntRat) : Res IntRat := do
  let zero ← sub b b
  let z ← eq b zero
  if z then throw else ok zero

/-- intrat_t.cpp:124-163. -/
def exp (a : IntRat) (e : Int) : Res IntRat := do
  let zero ← ofInt 0
  let one ← ofInt 1
  if e = 0 then do
    let z ← eq a zero
    if z then throw else ok one
  else if e < 0 then do
    let z ← eq a zero
    if z then throw
    else do
      let me ← ineg e
      if e = me then throw
      else do
        let xp ← div one a
        sqMulLoop mul 32 one xp me.toNat
  else sqMulLoop mul 32 one a e.toNat

/-- intrat_t as seen by q_poly_t, which writes `intrat_t(v)` for subfield elements and `intrat_t(1) / a` for
the reciprocal of a leading coefficient. -/
def cops : CoefOps IntRat where
  add := add
  sub := sub
  mul := mul
  div := div
  neg := neg
  eq := eq
  lt := lt
  gt := gt
  psub := fun _ v => ofInt v
  recip := fun a => do let one ← ofInt 1; let r ← div one a; ok (some r)
  isInt := eqInt
  exp := exp
  mulNat := fun a n => do let k ← ofInt n; mul a k
  dflt := ⟨0, 1⟩

end IntRat
end Spffl
