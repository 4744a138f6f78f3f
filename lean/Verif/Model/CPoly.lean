/-
Model of the coefficient-array polynomial classes fp_poly_t, f2n_poly_t, fpn_poly_t and q_poly_t
(spffl/polynomials).  The four .cpp files contain the same code over different coefficient types
(checked by a textual diff after renaming), so the model is parametric in the coefficient operations.
Line numbers below refer to fp_poly_t.cpp; where another class differs the difference is a field of
`CoefOps` or is said in the comment.

A polynomial object is its `degree` member together with the heap array `coeffs`, whose allocated length
is explicit: reads and writes outside it are undefined behaviour.  `int` degrees are natural numbers.
-/
import Verif.Base.Ops

namespace Spffl
open Res

/-- Operations the polynomial classes call on a coefficient. -/
structure CoefOps (α : Type) extends EltOps α where
  gt : α → α → Res Bool
  /-- `prime_subfield_element(v)`; `intrat_t(v)` in q_poly_t -/
  psub : α → Int → Res α
  /-- `recip`; `intrat_t(1) / a` in q_poly_t -/
  recip : α → Res (Option α)
  /-- `coeffs[0].get_residue() == v`; `coeffs[0] == v` in q_poly_t -/
  isInt : α → Int → Res Bool
  exp : α → Int → Res α
  /-- `coeffs[i] * intmod_t(i, p)` as written in `deriv` -/
  mulNat : α → Nat → Res α
  /-- default constructor, as run by `new coeff_type[n]` -/
  dflt : α

/-- The data members. -/
structure CPoly (α : Type) where
  degree : Nat
  coeffs : List α
deriving Repr, DecidableEq

namespace CPoly
variable {α : Type} (O : CoefOps α)

/-- `new coeff_type[n]` -/
def new (n : Nat) : List α := List.replicate n O.dflt

/-- fp_poly_t.cpp:629-635, scanning down from index `n - 1`. -/
def recLoop (zero : α) (cs : List α) : Nat → Res Nat
  | 0 => ok 0
  | i + 1 => do
    let c ← rd cs i
    let e ← O.eq c zero
    if e then recLoop zero cs i else ok i

/-- fp_poly_t.cpp:625-639. -/
def recompute_degree (p : CPoly α) : Res (CPoly α) := do
  let c0 ← rd p.coeffs 0
  let zero ← O.sub c0 c0
  let d ← recLoop O zero p.coeffs (p.degree + 1)
  ok ⟨d, p.coeffs⟩

/-- fp_poly_t.cpp:101-107 and 128-138: copy constructor and assignment. -/
def copy (p : CPoly α) : Res (CPoly α) := do
  let cs ← forUp 0 (p.degree + 1) (new O (p.degree + 1)) fun i cs =>
    store cs i (rd p.coeffs i)
  ok ⟨p.degree, cs⟩

/-- fp_poly_t.cpp:24-29. -/
def const (c0 : α) : Res (CPoly α) := recompute_degree O ⟨0, [c0]⟩

/-- fp_poly_t.cpp:32-39. -/
def linear (c1 c0 : α) : Res (CPoly α) := recompute_degree O ⟨1, [c0, c1]⟩

/-- fp_poly_t.cpp:42-50. -/
def quadratic (c2 c1 c0 : α) : Res (CPoly α) := recompute_degree O ⟨2, [c0, c1, c2]⟩

/-- fp_poly_t.cpp:117-120: `prime_subfield_element`. -/
def psub (p : CPoly α) (v : Int) : Res (CPoly α) := do
  let c ← rd p.coeffs 0
  let c0 ← O.psub c v
  const O c0

/-- fp_poly_t.cpp:141-166. -/
def add (a b : CPoly α) : Res (CPoly α) :=
  if a.degree < b.degree then do
    let cs ← forUp 0 (a.degree + 1) (new O (b.degree + 1)) fun i cs =>
      store cs i (do let x ← rd a.coeffs i; let y ← rd b.coeffs i; O.add x y)
    let cs ← forUp (a.degree + 1) (b.degree + 1) cs fun i cs =>
      store cs i (rd b.coeffs i)
    recompute_degree O ⟨b.degree, cs⟩
  else do
    let cs ← forUp 0 (b.degree + 1) (new O (a.degree + 1)) fun i cs =>
      store cs i (do let x ← rd a.coeffs i; let y ← rd b.coeffs i; O.add x y)
    let cs ← forUp (b.degree + 1) (a.degree + 1) cs fun i cs =>
      store cs i (rd a.coeffs i)
    recompute_degree O ⟨a.degree, cs⟩

/-- fp_poly_t.cpp:169-194. -/
def sub (a b : CPoly α) : Res (CPoly α) :=
  if a.degree < b.degree then do
    let cs ← forUp 0 (a.degree + 1) (new O (b.degree + 1)) fun i cs =>
      store cs i (do let x ← rd a.coeffs i; let y ← rd b.coeffs i; O.sub x y)
    let cs ← forUp (a.degree + 1) (b.degree + 1) cs fun i cs =>
      store cs i (do let y ← rd b.coeffs i; O.neg y)
    recompute_degree O ⟨b.degree, cs⟩
  else do
    let cs ← forUp 0 (b.degree + 1) (new O (a.degree + 1)) fun i cs =>
      store cs i (do let x ← rd a.coeffs i; let y ← rd b.coeffs i; O.sub x y)
    let cs ← forUp (b.degree + 1) (a.degree + 1) cs fun i cs =>
      store cs i (rd a.coeffs i)
    recompute_degree O ⟨a.degree, cs⟩

/-- fp_poly_t.cpp:197-204: unary minus.  The result keeps the default constructor's degree 0 and an array of
one element, into which `degree + 1` values are stored. -/
def neg (a : CPoly α) : Res (CPoly α) := do
  let cs ← forUp 0 (a.degree + 1) (new O 1) fun i cs =>
    store cs i (do let x ← rd a.coeffs i; O.neg x)
  ok ⟨0, cs⟩

/-- fp_poly_t.cpp:219: `rv.coeffs[i + j] += this->coeffs[i] * that.coeffs[j]`. -/
def mulAcc (a b : List α) (i j : Nat) (cs : List α) : Res (List α) := do
  let x ← rd a i
  let y ← rd b j
  let p ← O.mul x y
  let c ← rd cs (i + j)
  let s ← O.add c p
  wr cs (i + j) s

/-- fp_poly_t.cpp:207-223. -/
def mul (a b : CPoly α) : Res (CPoly α) := do
  let c0 ← rd a.coeffs 0
  let zero ← O.sub c0 c0
  let cs ← forUp 0 (a.degree + b.degree + 1) (new O (a.degree + b.degree + 1)) fun k cs =>
    store cs k (ok zero)
  let cs ← forUp 0 (a.degree + 1) cs fun i cs =>
    forUp 0 (b.degree + 1) cs fun j cs => mulAcc O a.coeffs b.coeffs i j cs
  recompute_degree O ⟨a.degree + b.degree, cs⟩

/-- fp_poly_t.cpp:240-245 and 248-253: adding or subtracting a constant in place. -/
def addConst (p : CPoly α) (a : α) : Res (CPoly α) := do
  let p ← copy O p
  let c ← rd p.coeffs 0
  let s ← O.add c a
  let cs ← wr p.coeffs 0 s
  recompute_degree O ⟨p.degree, cs⟩

def subConst (p : CPoly α) (a : α) : Res (CPoly α) := do
  let p ← copy O p
  let c ← rd p.coeffs 0
  let s ← O.sub c a
  let cs ← wr p.coeffs 0 s
  recompute_degree O ⟨p.degree, cs⟩

/-- fp_poly_t.cpp:256-263: multiplication by a coefficient. -/
def smul (p : CPoly α) (a : α) : Res (CPoly α) := do
  let p ← copy O p
  let cs ← forUp 0 (p.degree + 1) p.coeffs fun i cs =>
    store cs i (do let x ← rd cs i; O.mul x a)
  recompute_degree O ⟨p.degree, cs⟩

/-- fp_poly_t.cpp:266-273: division by a coefficient. -/
def sdiv (p : CPoly α) (a : α) : Res (CPoly α) := do
  let p ← copy O p
  let cs ← forUp 0 (p.degree + 1) p.coeffs fun i cs =>
    store cs i (do let x ← rd cs i; O.div x a)
  recompute_degree O ⟨p.degree, cs⟩

/-- fp_poly_t.cpp:692-700, scanning down from index `n - 1`. -/
def cmpLoop (a b : List α) : Nat → Res Int
  | 0 => ok 0
  | i + 1 => do
    let x ← rd a i
    let y ← rd b i
    let l ← O.lt x y
    if l then ok (-1)
    else do
      let g ← O.gt x y
      if g then ok 1 else cmpLoop a b i

/-- fp_poly_t.cpp:684-701: the direction computed by `cmp`. -/
def cmp (a b : CPoly α) : Res Int :=
  if a.degree < b.degree then ok (-1)
  else if b.degree < a.degree then ok 1
  else cmpLoop O a.coeffs b.coeffs (a.degree + 1)

/-- fp_poly_t.cpp:654-681. -/
def eq (a b : CPoly α) : Res Bool := do let d ← cmp O a b; ok (d == 0)
def lt (a b : CPoly α) : Res Bool := do let d ← cmp O a b; ok (decide (d < 0))
def gt (a b : CPoly α) : Res Bool := do let d ← cmp O a b; ok (decide (0 < d))
def le (a b : CPoly α) : Res Bool := do let d ← cmp O a b; ok (decide (d ≤ 0))
def ge (a b : CPoly α) : Res Bool := do let d ← cmp O a b; ok (decide (0 ≤ d))

/-- fp_poly_t.cpp:642-648: `operator==(int)`. -/
def eqInt (p : CPoly α) (v : Int) : Res Bool :=
  if p.degree ≠ 0 then ok false
  else do
    let c ← rd p.coeffs 0
    O.isInt c v

/-- `that == zero` with a coefficient on the right: implicit conversion, then `cmp`. -/
def eqConst (p : CPoly α) (c : α) : Res Bool := do
  let z ← const O c
  eq O p z

/-- fp_poly_t.cpp:389-391: subtract the shifted multiple from the remainder. -/
def subShift (d : CPoly α) (shift : Nat) (rem : List α) : Res (List α) :=
  forUp shift (shift + d.degree + 1) rem fun i rem =>
    store rem i (do let x ← rd rem i; let y ← rd d.coeffs (i - shift); O.sub x y)

/-- fp_poly_t.cpp:382-392: one round of long division; the state is (quotient, remainder). -/
def divStep (b : CPoly α) (dlinv : α) (shift : Nat) (s : List α × List α) : Res (List α × List α) := do
  let rl ← rd s.2 (shift + b.degree)
  let mlt ← O.mul rl dlinv
  let dm ← smul O b mlt
  let q ← wr s.1 shift mlt
  let r ← subShift O dm shift s.2
  ok (q, r)

/-- fp_poly_t.cpp:373-408: the division proper. -/
def longDiv (zero : α) (a b : CPoly α) : Res (CPoly α × CPoly α) := do
  let rem ← copy O a
  let lead ← rd b.coeffs b.degree
  match ← O.recip lead with
  | none => throw
  | some dlinv => do
    let s ← forDown (a.degree - b.degree + 1) 0 (new O (a.degree - b.degree + 1), rem.coeffs) (divStep O b dlinv)
    let top ← rd s.1 (a.degree - b.degree)
    let e ← O.eq top zero
    if e then throw
    else do
      let r ← recompute_degree O ⟨rem.degree, s.2⟩
      ok (⟨a.degree - b.degree, s.1⟩, r)

/-- fp_poly_t.cpp:330-409: `quot_and_rem`; the two references are returned as a pair. -/
def quot_and_rem (a b : CPoly α) : Res (CPoly α × CPoly α) := do
  let c0 ← rd a.coeffs 0
  let zero ← O.sub c0 c0
  let bz ← eqConst O b zero
  if bz then throw
  else do
    let az ← eqConst O a zero
    if az then do
      let q ← psub O a 0
      let r ← copy O a
      ok (q, r)
    else if a.degree < b.degree then do
      let q ← psub O a 0
      let r ← copy O a
      ok (q, r)
    else longDiv O zero a b

/-- fp_poly_t.cpp:226-237. -/
def div (a b : CPoly α) : Res (CPoly α) := do let s ← quot_and_rem O a b; ok s.1
def mod (a b : CPoly α) : Res (CPoly α) := do let s ← quot_and_rem O a b; ok s.2

/-- fp_poly_t.cpp:426-436.  The fuel `deg d + 2` is shown to suffice. -/
def gcdLoop : Nat → CPoly α → CPoly α → Res (CPoly α)
  | 0, _, _ => timeout
  | k + 1, c, d => do
    let s ← quot_and_rem O c d
    let z ← eqInt O s.2 0
    if z then ok d else gcdLoop k d s.2

/-- fp_poly_t.cpp:412-438. -/
def gcd (a b : CPoly α) : Res (CPoly α) := do
  let az ← eqInt O a 0
  if az then copy O b
  else do
    let bz ← eqInt O b 0
    if bz then copy O a
    else gcdLoop O (b.degree + 2) a b

/-- Variables of the loop of `ext_gcd`. -/
structure ExtState (α : Type) where
  mprime : CPoly α
  nprime : CPoly α
  rm : CPoly α
  rn : CPoly α
  c : CPoly α
  d : CPoly α

/-- fp_poly_t.cpp:455-472.  Returns `(d, rm, rn)`. -/
def extLoop : Nat → ExtState α → Res (CPoly α × CPoly α × CPoly α)
  | 0, _ => timeout
  | k + 1, s => do
    let t ← quot_and_rem O s.c s.d
    let z ← eqInt O t.2 0
    if z then ok (s.d, s.rm, s.rn)
    else do
      let qm ← mul O t.1 s.rm
      let rm ← sub O s.mprime qm
      let qn ← mul O t.1 s.rn
      let rn ← sub O s.nprime qn
      extLoop k { mprime := s.rm, nprime := s.rn, rm := rm, rn := rn, c := s.d, d := t.2 }

/-- fp_poly_t.cpp:442-474. -/
def ext_gcd (a b : CPoly α) : Res (CPoly α × CPoly α × CPoly α) := do
  let one ← psub O a 1
  let zero ← psub O a 0
  extLoop O (b.degree + 2) { mprime := one, nprime := zero, rm := zero, rn := one, c := a, d := b }

/-- fp_poly_t.cpp:478-517. -/
def exp (a : CPoly α) (e : Int) : Res (CPoly α) := do
  let zero ← psub O a 0
  let one ← psub O a 1
  let z ← eq O a zero
  if z then
    if e = 0 then throw else if e < 0 then throw else ok zero
  else if a.degree = 0 then do
    let c ← rd a.coeffs 0
    let v ← O.exp c e
    const O v
  else if e < 0 then throw
  else sqMulLoop (mul O) 32 one a e.toNat

/-- fp_poly_t.cpp:520-533. -/
def deriv (a : CPoly α) : Res (CPoly α) :=
  if a.degree = 0 then psub O a 0
  else do
    let rv ← copy O a
    let cs ← forUp 1 (a.degree + 1) rv.coeffs fun i cs => do
      let x ← rd a.coeffs i
      let v ← O.mulNat x i
      wr cs (i - 1) v
    recompute_degree O ⟨a.degree - 1, cs⟩

/-- fp_poly_t.cpp:567-575. -/
def eval (a : CPoly α) (c : α) : Res α := do
  let top ← rd a.coeffs a.degree
  forDown a.degree 0 top fun i rv => do
    let t ← O.mul rv c
    let x ← rd a.coeffs i
    O.add t x

/-- fp_poly_t.cpp:581-591. -/
def get_coeff (p : CPoly α) (deg : Int) : Res α :=
  if deg < 0 then throw
  else if (p.degree : Int) < deg then do
    let c ← rd p.coeffs 0
    O.sub c c
  else rd p.coeffs deg.toNat

/-- fp_poly_t.cpp:601-617: the two branches of `set_coeff`. -/
def set_coeff_grow (p : CPoly α) (pos : Nat) (zero c : α) : Res (CPoly α) := do
  let cs ← forUp 0 (p.degree + 1) (new O (pos + 1)) fun i cs =>
    store cs i (rd p.coeffs i)
  let cs ← forUp (p.degree + 1) pos cs fun i cs =>
    store cs i (ok zero)
  let cs ← wr cs pos c
  let e ← O.eq c zero
  if e then recompute_degree O ⟨pos, cs⟩ else ok ⟨pos, cs⟩

def set_coeff_in (p : CPoly α) (pos : Nat) (zero c : α) : Res (CPoly α) := do
  let cs ← wr p.coeffs pos c
  if pos = p.degree then do
    let e ← O.eq c zero
    if e then recompute_degree O ⟨p.degree, cs⟩ else ok ⟨p.degree, cs⟩
  else ok ⟨p.degree, cs⟩

/-- fp_poly_t.cpp:594-622. -/
def set_coeff (p : CPoly α) (pos : Int) (c : α) : Res (CPoly α) :=
  if pos < 0 then throw
  else do
    let c0 ← rd p.coeffs 0
    let zero ← O.psub c0 0
    if (p.degree : Int) < pos then set_coeff_grow O p pos.toNat zero c
    else set_coeff_in O p pos.toNat zero c

/-- The operators seen by containers of polynomials (tfacinfo). -/
def ops : EltOps (CPoly α) where
  add := add O
  sub := sub O
  mul := mul O
  div := div O
  neg := neg O
  eq := eq O
  lt := lt O

end CPoly
end Spffl
