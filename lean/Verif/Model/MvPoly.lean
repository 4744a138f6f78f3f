/-
Model of polynomials in several variables: the classes `tmvmonom` and `tmvpoly` of `/repo/pre-cmake/classes/tmvpoly.h`.

The first `nvars` entries of the array `expts` are a list, and so are the first `nmonoms` entries of the array `monoms` (the entries
behind them are never read; `insert` is only called on objects made by the default constructor, whose `nallocd` is right).  `exit(1)` is
an exception.  The operations on the coefficients are those of `Model/CPoly.lean`.  The text printed is not modelled.
-/
import Verif.Model.CPoly
import Verif.Model.IntMod

namespace Spffl
open Res
namespace MvPoly

/-- The data members of `tmvmonom`: /repo/pre-cmake/classes/tmvpoly.h:43-45. -/
structure Mono (α : Type) where
  coeff : α
  expts : List Int
deriving DecidableEq, Repr

variable {α : Type} (O : CoefOps α)

/-- The loop of `operator*` of monomials over the exponents: /repo/pre-cmake/classes/tmvpoly.h:151-152. -/
def addExpts : List Int → List Int → Res (List Int)
  | x :: xs, y :: ys => do
    let s ← iadd x y
    let t ← addExpts xs ys
    ok (s :: t)
  | _, _ => ok []

/-- /repo/pre-cmake/classes/tmvpoly.h:145-154. -/
def monoMul (a b : Mono α) : Res (Mono α) := do
  if a.expts.length ≠ b.expts.length then throw
  else do
    let c ← O.mul a.coeff b.coeff
    let e ← addExpts a.expts b.expts
    ok ⟨c, e⟩

/-- The loop of `expts_match`: /repo/pre-cmake/classes/tmvpoly.h:272-275. -/
def sameExpts : List Int → List Int → Bool
  | x :: xs, y :: ys => if x = y then sameExpts xs ys else false
  | _, _ => true

/-- /repo/pre-cmake/classes/tmvpoly.h:269-276. -/
def expts_match (a b : Mono α) : Res Bool :=
  if a.expts.length ≠ b.expts.length then throw else ok (sameExpts a.expts b.expts)

/-- `find`: /repo/pre-cmake/classes/tmvpoly.h:525-534; the index, if there is one. -/
def find : List (Mono α) → Mono α → Res (Option Nat)
  | [], _ => ok none
  | x :: xs, m => do
    if ← expts_match x m then ok (some 0)
    else do
      let r ← find xs m
      ok (r.map (· + 1))

/-- The loops of `strip_zero_monoms`: /repo/pre-cmake/classes/tmvpoly.h:475-481. -/
def stripLoop (zero : α) : List (Mono α) → Res (List (Mono α))
  | [] => ok []
  | m :: ms => do
    if ← O.eq m.coeff zero then stripLoop zero ms
    else do
      let r ← stripLoop zero ms
      ok (m :: r)

/-- /repo/pre-cmake/classes/tmvpoly.h:468-482. -/
def strip : List (Mono α) → Res (List (Mono α))
  | [] => ok []
  | m :: ms => do
    let zero ← O.sub m.coeff m.coeff
    stripLoop O zero (m :: ms)

/-- /repo/pre-cmake/classes/tmvpoly.h:435-442. -/
def ctor1 (m0 : Mono α) : Res (List (Mono α)) := strip O [m0]

/-- /repo/pre-cmake/classes/tmvpoly.h:445-453. -/
def ctor2 (m0 m1 : Mono α) : Res (List (Mono α)) := strip O [m0, m1]

/-- /repo/pre-cmake/classes/tmvpoly.h:456-465: `nmonoms` is 2, so that the third entry does not count. -/
def ctor3 (m0 m1 m2 : Mono α) : Res (List (Mono α)) := strip O ([m0, m1, m2].take 2)

/-- The first loop of `operator+`: /repo/pre-cmake/classes/tmvpoly.h:614-634.  The state is the sum and the marks. -/
def addLoop (zero : α) (q : List (Mono α)) : List (Mono α) → List (Mono α) × List Bool → Res (List (Mono α) × List Bool)
  | [], s => ok s
  | m :: ms, s => do
    match ← find q m with
    | none => addLoop zero q ms (s.1 ++ [m], s.2)
    | some j => do
      let marks ← wr s.2 j true
      let t ← rd q j
      let c ← O.add m.coeff t.coeff
      if ← O.eq c zero then addLoop zero q ms (s.1, marks)
      else addLoop zero q ms (s.1 ++ [⟨c, m.expts⟩], marks)

/-- The second loop: /repo/pre-cmake/classes/tmvpoly.h:636-638. -/
def unmarked : List (Mono α) → List Bool → List (Mono α)
  | m :: ms, b :: bs => if b then unmarked ms bs else m :: unmarked ms bs
  | _, _ => []

/-- /repo/pre-cmake/classes/tmvpoly.h:598-641. -/
def add (p q : List (Mono α)) : Res (List (Mono α)) :=
  match p, q with
  | [], q => ok q
  | p, [] => ok p
  | m :: ms, q => do
    let zero ← O.sub m.coeff m.coeff
    let s ← addLoop O zero q (m :: ms) ([], List.replicate q.length false)
    ok (s.1 ++ unmarked q s.2)

/-- /repo/pre-cmake/classes/tmvpoly.h:644-650. -/
def neg : List (Mono α) → Res (List (Mono α))
  | [] => ok []
  | m :: ms => do
    let c ← O.neg m.coeff
    let r ← neg ms
    ok (⟨c, m.expts⟩ :: r)

/-- /repo/pre-cmake/classes/tmvpoly.h:653-657. -/
def sub (p q : List (Mono α)) : Res (List (Mono α)) := do
  let n ← neg O q
  add O p n

/-- Collecting one product: /repo/pre-cmake/classes/tmvpoly.h:681-686. -/
def collect (prod : List (Mono α)) (m : Mono α) : Res (List (Mono α)) := do
  match ← find prod m with
  | some k => do
    let t ← rd prod k
    let c ← O.add t.coeff m.coeff
    wr prod k ⟨c, t.expts⟩
  | none => ok (prod ++ [m])

/-- The inner loop of `operator*`: /repo/pre-cmake/classes/tmvpoly.h:677-687. -/
def mulRow (a : Mono α) : List (Mono α) → List (Mono α) → Res (List (Mono α))
  | [], prod => ok prod
  | b :: bs, prod => do
    let m ← monoMul O a b
    let prod ← collect O prod m
    mulRow a bs prod

/-- The outer loop: /repo/pre-cmake/classes/tmvpoly.h:675-688. -/
def mulLoop (q : List (Mono α)) : List (Mono α) → List (Mono α) → Res (List (Mono α))
  | [], prod => ok prod
  | a :: as, prod => do
    let prod ← mulRow O a q prod
    mulLoop q as prod

/-- /repo/pre-cmake/classes/tmvpoly.h:660-691. -/
def mul (p q : List (Mono α)) : Res (List (Mono α)) :=
  match p, q with
  | [], _ => ok []
  | _, [] => ok []
  | p, q => mulLoop O q p []

/-- `find_degree` of a monomial: /repo/pre-cmake/classes/tmvpoly.h:220-226. -/
def monoDegree (l : List Int) (sum : Int) : Res Int :=
  match l with
  | [] => ok sum
  | e :: es => do
    let s ← iadd sum e
    monoDegree es s

/-- The loop of `find_degree`: /repo/pre-cmake/classes/tmvpoly.h:747-751. -/
def degLoop : List (Mono α) → Int → Res Int
  | [], mx => ok mx
  | m :: ms, mx => do
    let d ← monoDegree m.expts 0
    degLoop ms (if d > mx then d else mx)

/-- /repo/pre-cmake/classes/tmvpoly.h:741-753. -/
def find_degree : List (Mono α) → Res Int
  | [] => ok 0
  | m :: ms => do
    let d ← monoDegree m.expts 0
    degLoop ms d

/-- The loop of `is_homogeneous`: /repo/pre-cmake/classes/tmvpoly.h:820-823. -/
def homLoop (d0 : Int) : List (Mono α) → Res Bool
  | [] => ok true
  | m :: ms => do
    let d ← monoDegree m.expts 0
    if d ≠ d0 then ok false else homLoop d0 ms

/-- /repo/pre-cmake/classes/tmvpoly.h:815-824. -/
def is_homogeneous : List (Mono α) → Res Bool
  | [] => ok true
  | m :: ms => do
    let d ← monoDegree m.expts 0
    homLoop d ms

/-- `partial_eval` with an exponent that is not negative: /repo/pre-cmake/classes/tmvpoly.h:237-240. -/
def mulTimes (c : α) : Nat → α → Res α
  | 0, rv => ok rv
  | n + 1, rv => do
    let rv ← O.mul rv c
    mulTimes c n rv

/-- `partial_eval` with a negative exponent: /repo/pre-cmake/classes/tmvpoly.h:233-236. -/
def divTimes (c : α) : Nat → α → Res α
  | 0, rv => ok rv
  | n + 1, rv => do
    let rv ← O.div rv c
    divTimes c n rv

/-- /repo/pre-cmake/classes/tmvpoly.h:230-242. -/
def partial_eval (rv c : α) (e : Int) : Res α :=
  if e < 0 then divTimes O c e.natAbs rv else mulTimes O c e.natAbs rv

/-- The loop of `eval` of a monomial: /repo/pre-cmake/classes/tmvpoly.h:327-328. -/
def evalLoop : List α → List Int → α → Res α
  | c :: cs, e :: es, rv => do
    let rv ← partial_eval O rv c e
    evalLoop cs es rv
  | _, _, rv => ok rv

/-- /repo/pre-cmake/classes/tmvpoly.h:322-330. -/
def monoEval (m : Mono α) (c : List α) : Res α :=
  if m.expts.length ≠ c.length then throw else evalLoop O c m.expts m.coeff

/-- The loop of `eval`: /repo/pre-cmake/classes/tmvpoly.h:786-787. -/
def evalSum (c : List α) : List (Mono α) → α → Res α
  | [], sum => ok sum
  | m :: ms, sum => do
    let v ← monoEval O m c
    let sum ← O.add sum v
    evalSum c ms sum

/-- `eval` at a vector: /repo/pre-cmake/classes/tmvpoly.h:783-789 (the versions with one to four arguments at 756-780 do the same). -/
def eval (p : List (Mono α)) (c : List α) : Res α := do
  let c0 ← rd c 0
  let sum ← O.sub c0 c0
  evalSum O c p sum

/-- `deriv_in_place`: /repo/pre-cmake/classes/tmvpoly.h:354-358; `mulI` is `*=` with an int. -/
def monoDeriv (mulI : α → Int → Res α) (v : Nat) (m : Mono α) : Res (Mono α) :=
  if m.expts.length ≤ v then throw
  else do
    let e ← rd m.expts v
    let e' ← isub e 1
    let es ← wr m.expts v e'
    let c ← mulI m.coeff e
    ok ⟨c, es⟩

/-- The loop of `deriv`: /repo/pre-cmake/classes/tmvpoly.h:830-831. -/
def derivLoop (mulI : α → Int → Res α) (v : Nat) : List (Mono α) → Res (List (Mono α))
  | [] => ok []
  | m :: ms => do
    let d ← monoDeriv mulI v m
    let r ← derivLoop mulI v ms
    ok (d :: r)

/-- /repo/pre-cmake/classes/tmvpoly.h:827-834, for a variable index that is not negative. -/
def deriv (mulI : α → Int → Res α) (p : List (Mono α)) (v : Nat) : Res (List (Mono α)) := do
  let r ← derivLoop mulI v p
  strip O r

/-- The check in `tex_or_pretty_print`: /repo/pre-cmake/classes/tmvpoly.h:719-729; it ends the program at the first zero term. -/
def printable : List (Mono α) → Res Unit
  | [] => ok ()
  | m :: ms => do
    let z ← O.sub m.coeff m.coeff
    if ← O.eq m.coeff z then throw else printable ms

/-- `homogenize` of a monomial: /repo/pre-cmake/classes/tmvpoly.h:334-350; TMVPOLY_MAX_VARS is 8. -/
def monoHomogenize (d : Int) (m : Mono α) : Res (Mono α) := do
  if 8 < m.expts.length + 1 then throw
  else do
    let curd ← monoDegree m.expts 0
    let e ← isub d curd
    ok ⟨m.coeff, m.expts ++ [e]⟩

/-- The loop of `homogenize`: /repo/pre-cmake/classes/tmvpoly.h:809-810. -/
def homogenizeLoop (d : Int) : List (Mono α) → Res (List (Mono α))
  | [] => ok []
  | m :: ms => do
    let h ← monoHomogenize d m
    let r ← homogenizeLoop d ms
    ok (h :: r)

/-- /repo/pre-cmake/classes/tmvpoly.h:803-812. -/
def homogenize (p : List (Mono α)) : Res (List (Mono α)) := do
  if ← is_homogeneous p then ok p
  else do
    let d ← find_degree p
    homogenizeLoop d p

end MvPoly
end Spffl
