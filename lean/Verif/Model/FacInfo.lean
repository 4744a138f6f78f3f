/-
Model of spffl/containers/tfacinfo.h and spffl/factorization/int_factor.cpp.
-/
import Verif.Base.Ops
import Verif.Model.IntMath
import Verif.Model.Primes

namespace Spffl
open Res

/-- tfacinfo.h:27-38.  `facs` is the used prefix of the array; `unit` is `have_unit` together with
`unit`.  The array with its capacity and re-allocation is in `Model/FacStore.lean`. -/
structure FacInfo (α : Type) where
  facs : List (α × Int)
  unit : Option α
deriving DecidableEq, Repr

namespace FacInfo
variable {α : Type} (O : EltOps α)

/-- tfacinfo.h:45-51. -/
def empty : FacInfo α := ⟨[], none⟩

/-- tfacinfo.h:98. -/
def num_distinct (f : FacInfo α) : Nat := f.facs.length

/-- tfacinfo.h:102-108. -/
def get_num_factors (f : FacInfo α) : Res Int :=
  f.facs.foldlM (fun rv p => iadd rv p.2) 0

/-- tfacinfo.h:111-114, 133-140. -/
def get_ith_factor (f : FacInfo α) (i : Int) : Res α :=
  if i < 0 ∨ (f.facs.length : Int) ≤ i then throw
  else do let p ← rd f.facs i.toNat; ok p.1

/-- tfacinfo.h:117-120. -/
def get_ith_count (f : FacInfo α) (i : Int) : Res Int :=
  if i < 0 ∨ (f.facs.length : Int) ≤ i then throw
  else do let p ← rd f.facs i.toNat; ok p.2

/-- tfacinfo.h:200-212 (linear search): `(found, index)`. -/
def find (e : α) : List (α × Int) → Nat → Res (Bool × Nat)
  | [], i => ok (false, i)
  | p :: l, i => do
    let b ← O.eq e p.1
    if b then ok (true, i)
    else do
      let c ← O.lt e p.1
      if c then ok (false, i) else find e l (i + 1)

/-- tfacinfo.h:218-246.  The element-shifting loop is `List.insertIdx`. -/
def insert_factor (f : FacInfo α) (e : α) (count : Int) : Res (FacInfo α) := do
  let r ← find O e f.facs 0
  if r.1 then do
    let p ← rd f.facs r.2
    let c ← iadd p.2 count
    ok { f with facs := f.facs.set r.2 (p.1, c) }
  else ok { f with facs := f.facs.insertIdx r.2 (e, count) }

/-- tfacinfo.h:249-256. -/
def insert_unit (f : FacInfo α) (e : α) : Res (FacInfo α) :=
  match f.unit with
  | some u => do
    let u ← O.mul u e
    ok { f with unit := some u }
  | none => ok { f with unit := some e }

/-- tfacinfo.h:284-302: the part of `tf_exp` after the zero tests. -/
def tf_exp_nz (x one : α) (e : Int) : Res α :=
  if e = 0 then ok one
  else if e < 0 then do
    let me ← ineg e
    if e = me then throw
    else do
      let xp ← O.div one x
      sqMulLoop O.mul 32 one xp (toU32 me)
  else sqMulLoop O.mul 32 one x (toU32 e)

/-- tfacinfo.h:260-303. -/
def tf_exp (x : α) (e : Int) : Res α := do
  let zero ← O.sub x x
  let z ← O.eq x zero
  if z then
    if e < 0 then throw
    else if e = 0 then throw
    else ok zero
  else do
    let one ← O.div x x
    tf_exp_nz O x one e

/-- tfacinfo.h:307-311. -/
def exp_unit (u : Option α) (power : Int) : Res (Option α) :=
  match u with
  | some u => do let u ← tf_exp O u power; ok (some u)
  | none => ok none

/-- tfacinfo.h:306-315. -/
def exp_all (f : FacInfo α) (power : Int) : Res (FacInfo α) := do
  let u ← exp_unit O f.unit power
  let l ← f.facs.mapM (fun p => do let c ← imul p.2 power; ok (p.1, c))
  ok ⟨l, u⟩

/-- tfacinfo.h:319-322. -/
def merge_factors (f : FacInfo α) (l : List (α × Int)) : Res (FacInfo α) :=
  l.foldlM (fun f p => insert_factor O f p.1 p.2) f

/-- tfacinfo.h:318-331. -/
def merge (f g : FacInfo α) : Res (FacInfo α) := do
  let f ← merge_factors O f g.facs
  match g.unit with
  | none => ok f
  | some v =>
    match f.unit with
    | some u => do
      let u ← O.mul u v
      ok { f with unit := some u }
    | none => ok { f with unit := some v }

/-- tfacinfo.h:345-349: `fpower` after the inner loop (`power` iterations, none if `power ≤ 0`). -/
def fpower (one fac : α) (power : Int) : Res α :=
  forUp 1 (power.toNat + 1) one fun _ fp => O.mul fp fac

/-- tfacinfo.h:340-342. -/
def unfactor_unit (u : Option α) (one : α) : Res α :=
  match u with
  | some u => O.mul one u
  | none => ok one

/-- tfacinfo.h:337-353. -/
def unfactor (f : FacInfo α) (one : α) : Res α := do
  let rv ← unfactor_unit O f.unit one
  f.facs.foldlM (fun rv p => do
    let fp ← fpower O one p.1 p.2
    O.mul rv fp) rv

/-- tfacinfo.h:376-390. -/
def get_num_divisors (f : FacInfo α) : Res Int :=
  if f.facs.length = 0 ∧ f.unit.isNone then throw
  else f.facs.foldlM (fun rv p => do let c ← iadd p.2 1; imul rv c) 1

/-- tfacinfo.h:415-420. -/
def kth_loop : List (α × Int) → Int → α → Res α
  | [], _, rv => ok rv
  | p :: l, k, rv => do
    let base ← iadd p.2 1
    let power ← imod k base
    let k ← idiv k base
    let y ← tf_exp O p.1 power
    let rv ← O.mul rv y
    kth_loop l k rv

/-- tfacinfo.h:399-422. -/
def get_kth_divisor (f : FacInfo α) (k : Int) (one : α) : Res α :=
  if f.facs.length = 0 then
    if f.unit.isSome then ok one else throw
  else kth_loop O f.facs k one

/-- `qsort` with the comparator of tvector.h:471-474 is modelled as insertion sort with `<` (any sort
by a strict total order produces the same list). -/
def insertSorted (e : α) : List α → Res (List α)
  | [] => ok [e]
  | x :: l => do
    let c ← O.lt x e
    if c then do let l ← insertSorted e l; ok (x :: l)
    else ok (e :: x :: l)

def sortList (l : List α) : Res (List α) := l.foldrM (fun e acc => insertSorted O e acc) []

/-- tfacinfo.h:426-442. -/
def get_all_divisors (f : FacInfo α) (one : α) : Res (List α) := do
  let nd ← get_num_divisors f
  if nd ≤ 0 then throw
  else do
    let rv ← (List.range nd.toNat).mapM (fun (k : Nat) => get_kth_divisor O f k one)
    sortList O rv

/-- tfacinfo.h:461-463: one maximal proper divisor. -/
def kth_maximal (f : FacInfo α) (one : α) (k : Nat) : Res α := do
  let p ← rd f.facs k
  let c ← isub p.2 1
  unfactor O { f with facs := f.facs.set k (p.1, c) } one

/-- tfacinfo.h:446-467; `none` is the `false` return. -/
def get_maximal_proper_divisors (f : FacInfo α) (one : α) : Res (Option (List α)) :=
  if f.facs.length = 0 then
    if f.unit.isNone then throw else ok none
  else do
    let rv ← (List.range f.facs.length).mapM (kth_maximal O f one)
    let rv ← sortList O rv
    ok (some rv)

end FacInfo

/-- `element_type = int`: the built-in operators. -/
def intOps : EltOps Int where
  add := iadd
  sub := isub
  mul := imul
  div := idiv
  neg := ineg
  eq a b := ok (a == b)
  lt a b := ok (decide (a < b))

/-- int_factor.cpp:34-38: divide out `p`; returns `(count, n)`. -/
def divOut (p : Int) : Nat → Int → Int → Res (Int × Int)
  | 0, _, _ => timeout
  | k + 1, count, n => do
    let r ← imod n p
    if r = 0 then do
      let count ← iadd count 1
      let n ← idiv n p
      divOut p k count n
    else ok (count, n)

/-- int_factor.cpp:26-40: the loop over the prime table; returns the list so far and the cofactor.
The early `return` leaves the cofactor 1. -/
def factorLoop : List Nat → FacInfo Int → Int → Res (FacInfo Int × Int)
  | [], f, n => ok (f, n)
  | p :: ps, f, n =>
    if n = 1 then ok (f, n)
    else do
      let r ← imod n p
      if r ≠ 0 then factorLoop ps f n
      else do
        let (count, n) ← divOut p 32 0 n
        let f ← FacInfo.insert_factor intOps f p count
        factorLoop ps f n

/-- int_factor.cpp:41-44. -/
def factorTail (f : FacInfo Int) (n : Int) : Res (FacInfo Int) :=
  if n ≠ 1 then FacInfo.insert_factor intOps f n 1 else ok f

/-- int_factor.cpp:15-45. -/
def int_factor (n : Int) : Res (FacInfo Int) :=
  if -1 ≤ n ∧ n ≤ 1 then FacInfo.insert_unit intOps FacInfo.empty n
  else if n < 0 then do
    let f ← FacInfo.insert_unit intOps FacInfo.empty (-1)
    let m ← ineg n
    let (f, m) ← factorLoop primes_16 f m
    factorTail f m
  else do
    let (f, m) ← factorLoop primes_16 FacInfo.empty n
    factorTail f m

end Spffl
