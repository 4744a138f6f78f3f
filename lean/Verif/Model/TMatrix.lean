/-
Model of the class templates tvector<E> and tmatrix<E> (spffl/containers/tvector.h, tmatrix.h).

A vector value is the list of its elements (`num_elements` is the length); the storage behind it, which
matters only for assignment, is modelled separately in `VObj`.  A matrix is `num_rows`, `num_cols` and the
array `rows`.  `rows[i]` is a raw pointer access (undefined out of range) and `rows[i][j]` then goes through
tvector's checked `operator[]` (throws out of range); `m[i]` on a matrix is checked too.  A default
constructed matrix has a null `rows` pointer, here the empty list.

Inside tmatrix a row is only ever assigned to a freshly default-constructed row or to a row of the same
length, so plain list values are enough there (`VObj.assign` shows why that matters).
`int` dimensions are natural numbers except where a constructor checks their sign.
-/
import Verif.Model.CPoly

namespace Spffl
open Res

/-- what the container templates use of `element_type` -/
structure TOps (α : Type) extends EltOps α where
  /-- default constructor, as run by `new element_type[n]` -/
  dflt : α

def CoefOps.tops {α : Type} (O : CoefOps α) : TOps α := { O.toEltOps with dflt := O.dflt }

abbrev TVec (α : Type) := List α

namespace TVec
variable {α : Type} (O : TOps α)

/-- tvector.h:46-56. -/
def alloc (n : Int) : Res (TVec α) :=
  if n ≤ 0 then throw else ok (List.replicate n.toNat O.dflt)

/-- tvector.h:59-72. -/
def fill (e : α) (n : Int) : Res (TVec α) :=
  if n ≤ 0 then throw else ok (List.replicate n.toNat e)

/-- tvector.h:227-235: `v[i]`, read. -/
def get (v : TVec α) (i : Nat) : Res α := if i < v.length then rd v i else throw

/-- tvector.h:227-235: `v[i] = <expression>`; the right-hand side is evaluated first. -/
def put (v : TVec α) (i : Nat) (r : Res α) : Res (TVec α) := do
  let x ← r
  if i < v.length then wr v i x else throw

/-- tvector.h:489-497. -/
def check_equal_lengths (a b : TVec α) : Res Unit := if a.length = b.length then ok () else throw

/-- the loop shape shared by the componentwise operators: `rv.elements[i] = f(i)` -/
def tabulate (n : Nat) (f : Nat → Res α) : Res (TVec α) := do
  let rv ← alloc O n
  forUp 0 n rv fun i s => store s i (f i)

def comp (op : α → α → Res α) (a b : TVec α) : Res (TVec α) := do
  check_equal_lengths a b
  tabulate O a.length fun i => do
    let x ← rd a i
    let y ← rd b i
    op x y

/-- tvector.h:238-245. -/
def add (a b : TVec α) : Res (TVec α) := comp O O.add a b
/-- tvector.h:248-255. -/
def sub (a b : TVec α) : Res (TVec α) := comp O O.sub a b
/-- tvector.h:283-290: componentwise product. -/
def cmul (a b : TVec α) : Res (TVec α) := comp O O.mul a b
/-- tvector.h:354-361: componentwise quotient. -/
def cdiv (a b : TVec α) : Res (TVec α) := comp O O.div a b

/-- tvector.h:258-264. -/
def neg (a : TVec α) : Res (TVec α) :=
  tabulate O a.length fun i => do
    let x ← rd a i
    O.neg x

/-- tvector.h:267-273. -/
def smul (a : TVec α) (s : α) : Res (TVec α) :=
  tabulate O a.length fun i => do
    let x ← rd a i
    O.mul x s

/-- tvector.h:331-338. -/
def dot (a b : TVec α) : Res α := do
  check_equal_lengths a b
  let x0 ← rd a 0
  let z ← O.sub x0 x0
  forUp 0 a.length z fun i rv => do
    let x ← rd a i
    let y ← rd b i
    let p ← O.mul x y
    O.add rv p

/-- tvector.h:373-382: `*= e` and `mult_by(e)`, in place. -/
def mult_by (a : TVec α) (e : α) : Res (TVec α) :=
  forUp 0 a.length a fun i s => store s i (do
    let x ← rd s i
    O.mul x e)

/-- tvector.h:415-423: `this = this * a - that * b`, in place. -/
def accum_row_mul (v : TVec α) (a b : α) (that : TVec α) : Res (TVec α) := do
  if v.length ≠ that.length then check_equal_lengths v that
  forUp 0 v.length v fun i s => store s i (do
    let x ← rd s i
    let p ← O.mul x a
    let y ← rd that i
    let q ← O.mul y b
    O.sub p q)

/-- `a != b` on elements -/
def ne (x y : α) : Res Bool := do
  let e ← O.eq x y
  ok (!e)

/-- the comparison loop of tvector.h:426-436, from index `i`, `k` elements left -/
def eqLoop (a b : TVec α) : Nat → Nat → Res Bool
  | 0, _ => ok true
  | k + 1, i => do
    let x ← rd a i
    let y ← rd b i
    let d ← ne O x y
    if d then ok false else eqLoop a b k (i + 1)

/-- tvector.h:426-436. -/
def eq (a b : TVec α) : Res Bool :=
  if a.length ≠ b.length then ok false else eqLoop O a b a.length 0

/-- tvector.h:444-451: equal to a scalar in every position -/
def eqScalarLoop (a : TVec α) (e : α) : Nat → Nat → Res Bool
  | 0, _ => ok true
  | k + 1, i => do
    let x ← rd a i
    let d ← ne O x e
    if d then ok false else eqScalarLoop a e k (i + 1)

def eqScalar (a : TVec α) (e : α) : Res Bool := eqScalarLoop O a e a.length 0

/-- tvector.h:458-466: index of the first element different from `zero`. -/
def leaderLoop (zero : α) (v : TVec α) : Nat → Nat → Res (Option Nat)
  | 0, _ => ok none
  | k + 1, j => do
    let x ← rd v j
    let d ← ne O x zero
    if d then ok (some j) else leaderLoop zero v k (j + 1)

def find_leader_pos (zero : α) (v : TVec α) : Res (Option Nat) := leaderLoop O zero v v.length 0

/-- tvector.h:500-508. -/
def trim_num_elements (v : TVec α) (n : Int) : Res (TVec α) :=
  if n < 1 ∨ (v.length : Int) < n then throw else ok (v.take n.toNat)

end TVec

/-- The storage view of a vector object: `elements` is the heap array (`none` for the null pointer, otherwise
its allocated contents), `num_elements` is the member. -/
structure VObj (α : Type) where
  elements : Option (List α)
  num_elements : Nat
deriving Repr, DecidableEq

namespace VObj
variable {α : Type} (dflt : α)

/-- tvector.h:41-44. -/
def empty : VObj α := ⟨none, 0⟩

/-- tvector.h:59-72 -/
def fill (e : α) (n : Nat) : VObj α := ⟨some (List.replicate n e), n⟩

/-- a vector holding exactly the listed elements in an array of that size -/
def ofList (v : List α) : VObj α := ⟨some v, v.length⟩

/-- the elements of the vector, if the object is usable -/
def value (v : VObj α) : Option (List α) :=
  match v.elements with
  | none => if v.num_elements = 0 then some [] else none
  | some s => if v.num_elements ≤ s.length then some (s.take v.num_elements) else none

/-- `that.elements[i]` -/
def rdElem (that : VObj α) (i : Nat) : Res α :=
  match that.elements with
  | none => ub
  | some s => rd s i

/-- tvector.h:97-109.  `num_elements` is overwritten first, so the comparison on line 101 compares the new
size with itself. -/
def assign (this that : VObj α) : Res (VObj α) := do
  let num := that.num_elements
  let storage := match this.elements with
    | none => List.replicate that.num_elements dflt
    | some s => if num < that.num_elements then List.replicate that.num_elements dflt else s
  let s ← forUp 0 that.num_elements storage fun i s => store s i (rdElem that i)
  ok ⟨some s, num⟩

/-- tvector.h:500-508. -/
def trim_num_elements (v : VObj α) (n : Int) : Res (VObj α) :=
  if n < 1 ∨ (v.num_elements : Int) < n then throw else ok ⟨v.elements, n.toNat⟩

end VObj

/-- The data members of tmatrix. -/
structure TMat (α : Type) where
  num_rows : Nat
  num_cols : Nat
  rows : List (TVec α)
deriving Repr, DecidableEq

namespace TMat
variable {α : Type} (O : TOps α)

/-- tmatrix.h:71 -/
def empty : TMat α := ⟨0, 0, []⟩

/-- tmatrix.h:35-50. -/
def alloc (r c : Int) : Res (TMat α) :=
  if r ≤ 0 ∨ c ≤ 0 then throw
  else ok ⟨r.toNat, c.toNat, List.replicate r.toNat (List.replicate c.toNat O.dflt)⟩

/-- tmatrix.h:53-68. -/
def fill (e : α) (r c : Int) : Res (TMat α) :=
  if r ≤ 0 ∨ c ≤ 0 then throw
  else ok ⟨r.toNat, c.toNat, List.replicate r.toNat (List.replicate c.toNat e)⟩

/-- `rows[i][j]`, read -/
def get (A : TMat α) (i j : Nat) : Res α := do
  let r ← rd A.rows i
  TVec.get r j

/-- `rows[i][j] = <expression>` -/
def put (A : TMat α) (i j : Nat) (r : Res α) : Res (TMat α) := do
  let x ← r
  let row ← rd A.rows i
  let row' ← TVec.put row j (ok x)
  ok { A with rows := A.rows.set i row' }

/-- tmatrix.h:390-398: `m[i]`. -/
def row (A : TMat α) (i : Nat) : Res (TVec α) := if i < A.num_rows then rd A.rows i else throw

/-- `m[i][j] = <expression>` -/
def cput (A : TMat α) (i j : Nat) (r : Res α) : Res (TMat α) := do
  let x ← r
  if i < A.num_rows then put A i j (ok x) else throw

/-- the double loop `for i < m for j < n: rv[i][j] = f(i, j)` on a freshly allocated matrix -/
def tabulate (m n : Nat) (f : Nat → Nat → Res α) : Res (TMat α) := do
  let rv ← alloc O m n
  forUp 0 m rv fun i s => forUp 0 n s fun j s => put s i j (f i j)

/-- tmatrix.h:1656-1665. -/
def check_dims (A B : TMat α) : Res Unit :=
  if A.num_rows ≠ B.num_rows ∨ A.num_cols ≠ B.num_cols then throw else ok ()

/-- tmatrix.h:361-369, rows from `i`, `k` rows left -/
def eqLoop (A B : TMat α) : Nat → Nat → Res Bool
  | 0, _ => ok true
  | k + 1, i => do
    let x ← rd A.rows i
    let y ← rd B.rows i
    let e ← TVec.eq O x y
    if !e then ok false else eqLoop A B k (i + 1)

def eq (A B : TMat α) : Res Bool := do
  check_dims A B
  eqLoop O A B A.num_rows 0

/-- tmatrix.h:402-414. -/
def get_column (A : TMat α) (j : Int) : Res (TVec α) := do
  if j < 0 ∨ (A.num_cols : Int) ≤ j then throw
  else do
    let rv ← TVec.alloc O A.num_rows
    forUp 0 A.num_rows rv fun i s => TVec.put s i (A.get i j.toNat)

/-- tmatrix.h:417-434, in place -/
def put_column (A : TMat α) (j : Int) (v : TVec α) : Res (TMat α) := do
  if j < 0 ∨ (A.num_cols : Int) ≤ j then throw
  else if v.length ≠ A.num_rows then throw
  else forUp 0 A.num_rows A fun i s => put s i j.toNat (TVec.get v i)

def comp (op : α → α → Res α) (A B : TMat α) : Res (TMat α) := do
  check_dims A B
  tabulate O A.num_rows A.num_cols fun i j => do
    let x ← A.get i j
    let y ← B.get i j
    op x y

/-- tmatrix.h:437-446. -/
def add (A B : TMat α) : Res (TMat α) := comp O O.add A B
/-- tmatrix.h:449-467. -/
def sub (A B : TMat α) : Res (TMat α) := comp O O.sub A B

/-- tmatrix.h:470-478. -/
def neg (A : TMat α) : Res (TMat α) :=
  tabulate O A.num_rows A.num_cols fun i j => do
    let x ← A.get i j
    O.neg x

/-- tmatrix.h:824-830. -/
def is_square (A : TMat α) : Bool := A.num_rows == A.num_cols

/-- `rv[i][i] op= e` for each `i` on a copy (tmatrix.h:481-506) -/
def addDiag (op : α → α → Res α) (A : TMat α) (e : α) : Res (TMat α) :=
  if !A.is_square then throw
  else forUp 0 A.num_rows A fun i s => cput s i i (do
    let x ← s.get i i
    op x e)

/-- tmatrix.h:481-492. -/
def addScalar (A : TMat α) (e : α) : Res (TMat α) := addDiag O.add A e
/-- tmatrix.h:495-506. -/
def subScalar (A : TMat α) (e : α) : Res (TMat α) := addDiag O.sub A e

/-- tmatrix.h:511-536: matrix times column vector. -/
def mulVec (A : TMat α) (v : TVec α) : Res (TVec α) := do
  if A.num_cols ≠ v.length then throw
  else do
    let rv ← TVec.alloc O A.num_rows
    let t00 ← A.get 0 0
    let zero ← O.sub t00 t00
    let rv ← forUp 0 A.num_rows rv fun i s => TVec.put s i (ok zero)
    forUp 0 A.num_rows rv fun i s => forUp 0 A.num_cols s fun j s => TVec.put s i (do
      let x ← TVec.get s i
      let a ← A.get i j
      let b ← TVec.get v j
      let p ← O.mul a b
      O.add x p)

/-- tvector.h:295-328: row vector times matrix. -/
def vecMul (v : TVec α) (A : TMat α) : Res (TVec α) := do
  if v.length ≠ A.num_rows then throw
  else do
    let rv ← TVec.alloc O A.num_cols
    let t0 ← rd v 0
    let zero ← O.sub t0 t0
    let rv ← forUp 0 A.num_cols rv fun j s => store s j (ok zero)
    forUp 0 A.num_cols rv fun j s => forUp 0 A.num_rows s fun i s => store s j (do
      let x ← rd s j
      let a ← rd v i
      let r ← A.row i
      let b ← TVec.get r j
      let p ← O.mul a b
      O.add x p)

/-- tmatrix.h:610-640: matrix product. -/
def mul (A B : TMat α) : Res (TMat α) := do
  if A.num_cols ≠ B.num_rows then throw
  else do
    let rv ← alloc O A.num_rows B.num_cols
    let t00 ← A.get 0 0
    let zero ← O.sub t00 t00
    let rv ← forUp 0 A.num_rows rv fun i s => forUp 0 B.num_cols s fun j s => put s i j (ok zero)
    forUp 0 A.num_rows rv fun i s => forUp 0 B.num_cols s fun j s => forUp 0 A.num_cols s fun k s =>
      put s i j (do
        let x ← s.get i j
        let a ← A.get i k
        let b ← B.get k j
        let p ← O.mul a b
        O.add x p)

/-- tmatrix.h:643-653: matrix times scalar. -/
def smul (A : TMat α) (e : α) : Res (TMat α) :=
  tabulate O A.num_rows A.num_cols fun i j => do
    let x ← A.get i j
    O.mul x e

/-- tmatrix.h:692-703. -/
def outer (u v : TVec α) : Res (TMat α) :=
  tabulate O u.length v.length fun i j => do
    let x ← TVec.get u i
    let y ← TVec.get v j
    O.mul x y

/-- tmatrix.h:706-714 -/
def transpose (A : TMat α) : Res (TMat α) := do
  let rv ← alloc O A.num_cols A.num_rows
  forUp 0 A.num_rows rv fun i s => forUp 0 A.num_cols s fun j s => put s j i (A.get i j)

/-- tmatrix.h:717-727 -/
def flip_horiz (A : TMat α) : Res (TMat α) :=
  tabulate O A.num_rows A.num_cols fun i j => A.get i (A.num_cols - j - 1)
/-- tmatrix.h:730-740 -/
def flip_vert (A : TMat α) : Res (TMat α) :=
  tabulate O A.num_rows A.num_cols fun i j => A.get (A.num_rows - i - 1) j
/-- tmatrix.h:743-753 -/
def flip_horiz_vert (A : TMat α) : Res (TMat α) :=
  tabulate O A.num_rows A.num_cols fun i j => A.get (A.num_rows - i - 1) (A.num_cols - j - 1)

/-- tmatrix.h:776-786: first element of row `i` (from `j`, `k` left) that differs from `zero` -/
def nonzeroInRow (A : TMat α) (zero : α) (i : Nat) : Nat → Nat → Res (Option α)
  | 0, _ => ok none
  | k + 1, j => do
    let x ← A.get i j
    let d ← TVec.ne O x zero
    if d then ok (some x) else nonzeroInRow A zero i k (j + 1)

def nonzeroIn (A : TMat α) (zero : α) : Nat → Nat → Res (Option α)
  | 0, _ => ok none
  | k + 1, i => do
    let r ← nonzeroInRow O A zero i A.num_cols 0
    match r with
    | some x => ok (some x)
    | none => nonzeroIn A zero k (i + 1)

/-- tmatrix.h:774-788: "one" is the first non-zero element divided by itself. -/
def find_one (A : TMat α) : Res (Option α) := do
  let a ← A.get 0 0
  let zero ← O.sub a a
  let r ← nonzeroIn O A zero A.num_rows 0
  match r with
  | none => ok none
  | some x => do
    let one ← O.div x x
    ok (some one)

/-- tmatrix.h:792-810. -/
def make_I (A : TMat α) (zero one : α) : Res (TMat α) :=
  if !A.is_square then throw
  else forUp 0 A.num_rows A fun i s => forUp 0 A.num_cols s fun j s =>
    put s i j (ok (if i = j then one else zero))

/-- tmatrix.h:813-820. -/
def is_zero (A : TMat α) : Res Bool := do
  let o ← find_one O A
  ok o.isNone

/-- tmatrix.h:845-849, from `i`, `k` rows left -/
def diagLoop (A : TMat α) (one : α) : Nat → Nat → Res Bool
  | 0, _ => ok true
  | k + 1, i => do
    let x ← A.get i i
    let d ← TVec.ne O x one
    if d then ok false else diagLoop A one k (i + 1)

/-- tmatrix.h:851-857, row `i` from column `j`, `k` columns left -/
def offDiagRow (A : TMat α) (zero : α) (i : Nat) : Nat → Nat → Res Bool
  | 0, _ => ok true
  | k + 1, j =>
    if i = j then offDiagRow A zero i k (j + 1)
    else do
      let x ← A.get i j
      let d ← TVec.ne O x zero
      if d then ok false else offDiagRow A zero i k (j + 1)

/-- tmatrix.h:850-858 -/
def offDiag (A : TMat α) (zero : α) : Nat → Nat → Res Bool
  | 0, _ => ok true
  | k + 1, i => do
    let b ← offDiagRow O A zero i A.num_cols 0
    if !b then ok false else offDiag A zero k (i + 1)

/-- tmatrix.h:832-860. -/
def is_I (A : TMat α) : Res Bool := do
  if !A.is_square then ok false
  else do
    let a ← A.get 0 0
    let zero ← O.sub a a
    let o ← find_one O A
    match o with
    | none => ok false
    | some one => do
      let d ← diagLoop O A one A.num_rows 0
      if !d then ok false else offDiag O A zero A.num_rows 0

/-- `rows[i] = r` for a row of the same length -/
def setRow (A : TMat α) (i : Nat) (r : Res (TVec α)) : Res (TMat α) := do
  let v ← r
  let rs ← wr A.rows i v
  ok { A with rows := rs }

/-- tmatrix.h:863 and tvector.h:477-484: swap the element pointers of two rows. -/
def swap (A : TMat α) (a b : Nat) : Res (TMat α) := do
  let x ← rd A.rows a
  let y ← rd A.rows b
  if x.length ≠ y.length then throw
  else do
    let r1 ← wr A.rows a y
    let r2 ← wr r1 b x
    ok { A with rows := r2 }

/-- `ptrs[i][j]`: raw access through the exposed element pointers -/
def raw (A : TMat α) (i j : Nat) : Res α := do
  let r ← rd A.rows i
  rd r j

/-- tmatrix.h:928-943: first row from `p` on (`k` rows left) with a non-zero entry in the column. -/
def findPivot (A : TMat α) (zero : α) (col : Nat) : Nat → Nat → Res (Option Nat)
  | 0, _ => ok none
  | k + 1, p => do
    let x ← A.raw p col
    let d ← TVec.ne O x zero
    if d then ok (some p) else findPivot A zero col k (p + 1)

/-- tmatrix.h:932-938: bring the pivot row to the top, tracking the sign. -/
def pivotSwap (A : TMat α) (s minus_one : α) (top piv : Nat) : Res (TMat α × α) :=
  if top ≠ piv then do
    let A ← A.swap top piv
    let s ← O.mul s minus_one
    ok (A, s)
  else ok (A, s)

/-- tmatrix.h:961-971: clear the column below the pivot. -/
def clearBelow (A : TMat α) (s lead : α) (top left : Nat) : Res (TMat α × α) :=
  forUp (top + 1) A.num_rows (A, s) fun cur st => do
    let cl ← st.1.raw cur left
    let A' ← st.1.setRow cur (do
      let v ← rd st.1.rows cur
      let t ← rd st.1.rows top
      TVec.accum_row_mul O v lead cl t)
    let s' ← O.div st.2 lead
    ok (A', s')

/-- tmatrix.h:950-972: normalise the pivot row, then clear. -/
def normClear (A : TMat α) (s zero one : α) (top left : Nat) : Res (TMat α × α) := do
  let lead ← A.raw top left
  let d ← TVec.ne O lead zero
  if d then do
    let inv ← O.div one lead
    let A ← A.setRow top (do
      let v ← rd A.rows top
      TVec.mult_by O v inv)
    let s ← O.mul s lead
    let lead ← A.raw top left
    clearBelow O A s lead top left
  else ok (A, s)

/-- tmatrix.h:921-975: the elimination loop; one column is consumed per iteration. -/
def rrLoop (zero one minus_one : α) : Nat → TMat α → α → Nat → Nat → Res (TMat α × α)
  | 0, A, s, top, left => if top < A.num_rows ∧ left < A.num_cols then timeout else ok (A, s)
  | k + 1, A, s, top, left =>
    if top < A.num_rows ∧ left < A.num_cols then do
      let piv ← findPivot O A zero left (A.num_rows - top) top
      match piv with
      | none => rrLoop zero one minus_one k A s top (left + 1)
      | some p => do
        let As ← pivotSwap O A s minus_one top p
        let As ← normClear O As.1 As.2 zero one top left
        rrLoop zero one minus_one k As.1 As.2 (top + 1) (left + 1)
    else ok (A, s)

/-- tmatrix.h:905-977: row reduction, with the scalar `s` of the determinant. -/
def row_reduce_below_with_scalar (A : TMat α) : Res (TMat α × α) := do
  let a ← A.get 0 0
  let zero ← O.sub a a
  let o ← find_one O A
  match o with
  | none => ok (A, zero)
  | some one => do
    let minus_one ← O.sub zero one
    rrLoop O zero one minus_one A.num_cols A one 0 0

/-- tmatrix.h:980-983 -/
def row_reduce_below (A : TMat α) : Res (TMat α) := do
  let r ← row_reduce_below_with_scalar O A
  ok r.1

/-- tmatrix.h:996-1010: clear row `row` at the leaders of the rows `row2, row2 + 1, ...` (`k` rows left). -/
def clearRow (zero : α) (row : Nat) : Nat → TMat α → Nat → Res (TMat α)
  | 0, A, _ => ok A
  | k + 1, A, row2 => do
    let r2 ← rd A.rows row2
    let l ← TVec.find_leader_pos O zero r2
    match l with
    | none => ok A
    | some pos => do
      let lead ← A.get row2 pos
      let cv ← A.get row pos
      let e ← O.eq cv zero
      if e then clearRow zero row k A (row2 + 1)
      else do
        let m ← O.div cv lead
        let A ← A.setRow row (do
          let r ← rd A.rows row
          let t ← TVec.smul O r2 m
          TVec.sub O r t)
        clearRow zero row k A (row2 + 1)

/-- tmatrix.h:988-1012. -/
def row_echelon_form (A : TMat α) : Res (TMat α) := do
  let A ← row_reduce_below O A
  let a ← A.get 0 0
  let zero ← O.sub a a
  forUp 0 A.num_rows A fun row A => clearRow O zero row (A.num_rows - (row + 1)) A (row + 1)

/-- tmatrix.h:1057-1062, row `i` from column `j`: is there a non-zero entry? -/
def rowIsZero (A : TMat α) (zero : α) (i : Nat) : Nat → Nat → Res Bool
  | 0, _ => ok true
  | k + 1, j => do
    let x ← A.get i j
    let d ← TVec.ne O x zero
    if d then ok false else rowIsZero A zero i k (j + 1)

/-- tmatrix.h:1051-1068: number of non-zero rows. -/
def get_rank_rr (A : TMat α) : Res Nat := do
  let a ← A.get 0 0
  let zero ← O.sub a a
  forUp 0 A.num_rows 0 fun i rank => do
    let z ← rowIsZero O A zero i A.num_cols 0
    ok (if z then rank else rank + 1)

/-- tmatrix.h:1043-1047. -/
def get_rank (A : TMat α) : Res Nat := do
  let rr ← row_reduce_below O A
  get_rank_rr O rr

/-- tmatrix.h:1014-1026 (`none` for false): non-zero rows of the row-reduced matrix. -/
def get_rr_non_zero_rows (A : TMat α) : Res (Option (TMat α)) := do
  let rr ← row_reduce_below O A
  let rank ← get_rank_rr O rr
  if rank = 0 then ok none else ok (some { rr with num_rows := rank })

/-- tmatrix.h:1028-1040 -/
def get_rech_non_zero_rows (A : TMat α) : Res (Option (TMat α)) := do
  let rr ← row_echelon_form O A
  let rank ← get_rank_rr O rr
  if rank = 0 then ok none else ok (some { rr with num_rows := rank })

/-- tmatrix.h:1093-1101: clear the flags at the leader positions of the first `rank` rows. -/
def freeFlags (rr : TMat α) (zero : α) (rank : Nat) : Res (List Bool) :=
  forUp 0 rank (List.replicate rr.num_cols true) fun i fl => do
    let r ← rd rr.rows i
    let l ← TVec.find_leader_pos O zero r
    match l with
    | some p => wr fl p false
    | none => ok fl

/-- tmatrix.h:1103-1107: the indices whose flag is set; `nfree` and the array `free_indices` of `n` slots. -/
def freeIndices (fl : List Bool) (n : Nat) : Res (List Nat × Nat) :=
  forUp 0 n (List.replicate n 0, 0) fun i st => do
    let f ← rd fl i
    if f then do
      let a ← wr st.1 st.2 i
      ok (a, st.2 + 1)
    else ok st

/-- tmatrix.h:1136-1143: the dependent coefficients of basis vector `i`. -/
def depLoop (rr : TMat α) (zero : α) (rank fi i : Nat) (basis : TMat α) : Res (TMat α) :=
  forUp 0 rank basis fun j basis => do
    let x ← rr.get j fi
    let e ← O.eq x zero
    if e then ok basis
    else do
      let r ← rd rr.rows j
      let l ← TVec.find_leader_pos O zero r
      match l with
      | some p => put basis i p (do
          let y ← rr.get j fi
          O.neg y)
      | none => ub

/-- tmatrix.h:1071-1172 (`none` for false).  `free_indices` is indeterminate beyond `nfree`; here the unread
slots hold 0.  When `find_leader_pos` fails in the last loop the code would reuse the previous `dep_pos`;
that cannot happen (the row has a non-zero entry), and the model says `ub` there. -/
def get_kernel_basis (A : TMat α) (zero one : α) : Res (Option (TMat α)) := do
  let rr ← row_echelon_form O A
  let rank ← get_rank_rr O rr
  let dimker := rr.num_cols - rank
  if dimker = 0 then ok none
  else do
    let basis ← tabulate O dimker rr.num_cols fun _ _ => ok zero
    let fl ← freeFlags O rr zero rank
    let fi ← freeIndices fl A.num_cols
    let basis ← forUp 0 dimker basis fun i basis => do
      let f ← rd fi.1 i
      let basis ← put basis i f (ok one)
      depLoop O rr zero rank f i basis
    ok (some basis)

/-- tmatrix.h:1301-1324.  Note the column offset `num_rows` on line 1319. -/
def paste (A B : TMat α) : Res (TMat α) := do
  if A.num_rows ≠ B.num_rows then throw
  else do
    let rv ← alloc O A.num_rows (A.num_cols + B.num_cols)
    let rv ← forUp 0 A.num_rows rv fun i s => forUp 0 A.num_cols s fun j s => put s i j (A.get i j)
    forUp 0 A.num_rows rv fun i s => forUp 0 B.num_cols s fun j s => put s i (A.num_rows + j) (B.get i j)

/-- tmatrix.h:1327-1348. -/
def paste_vector (A : TMat α) (v : TVec α) : Res (TMat α) := do
  if A.num_rows ≠ v.length then throw
  else do
    let rv ← alloc O A.num_rows (A.num_cols + 1)
    let rv ← forUp 0 A.num_rows rv fun i s => forUp 0 A.num_cols s fun j s => put s i j (A.get i j)
    forUp 0 A.num_rows rv fun i s => put s i A.num_cols (TVec.get v i)

/-- tmatrix.h:1351-1377: left and right parts. -/
def split (A : TMat α) (c : Int) : Res (TMat α × TMat α) := do
  if c < 0 ∨ (A.num_cols : Int) ≤ c then throw
  else do
    let l ← alloc O A.num_rows c
    let r ← alloc O A.num_rows (A.num_cols - c)
    let l ← forUp 0 A.num_rows l fun i s => forUp 0 c.toNat s fun j s => put s i j (A.get i j)
    let r ← forUp 0 A.num_rows r fun i s => forUp c.toNat A.num_cols s fun j s => put s i (j - c.toNat) (A.get i j)
    ok (l, r)

/-- tmatrix.h:1380-1400: returned flag and the output matrix (`none`: left untouched). -/
def inverse (A : TMat α) : Res (Bool × Option (TMat α)) := do
  let a ← A.get 0 0
  let zero ← O.sub a a
  if !A.is_square then throw
  else do
    let o ← find_one O A
    match o with
    | none => ok (false, none)
    | some one => do
      let I ← make_I A zero one
      let pair ← paste O A I
      let pair ← row_echelon_form O pair
      let lr ← split O pair A.num_cols
      let b ← is_I O lr.1
      ok (b, some lr.2)

/-- tmatrix.h:1414-1427. -/
def det (A : TMat α) : Res α := do
  if !A.is_square then throw
  else do
    let r ← row_reduce_below_with_scalar O A
    forUp 0 A.num_rows r.2 fun i d => do
      let x ← r.1.get i i
      O.mul d x

/-- `x[i] = <expression>` on the caller's object -/
def putX (x : VObj α) (i : Nat) (r : Res α) : Res (VObj α) := do
  let e ← r
  match x.elements with
  | none => ub
  | some s =>
    if i < x.num_elements then do
      let s' ← wr s i e
      ok ⟨some s', x.num_elements⟩
    else throw

/-- tmatrix.h:1265-1286.  `x` is the caller's output object. -/
def solve_unique_full_rank (A : TMat α) (x : VObj α) (b : TVec α) : Res (Bool × VObj α) := do
  let Ab ← paste_vector O A b
  let Ab ← row_echelon_form O Ab
  let rank ← get_rank_rr O Ab
  if rank ≠ A.num_cols then ok (false, x)
  else do
    let t ← TVec.alloc O A.num_cols
    let x ← VObj.assign O.dflt x (VObj.ofList t)
    let s ← forUp 0 A.num_cols x fun i x => putX x i (Ab.get i A.num_cols)
    ok (true, s)

/-- tmatrix.h:1239-1260. -/
def solve_unique (A : TMat α) (x : VObj α) (b : TVec α) : Res (Bool × VObj α) := do
  if A.num_rows < A.num_cols then ok (false, x)
  else do
    let r ← get_rank O A
    if r ≠ A.num_cols then ok (false, x) else solve_unique_full_rank O A x b

/-- tmatrix.h:542-555; `power` as a 32-bit pattern. -/
def posexp (A : TMat α) (power : Nat) (I : TMat α) : Res (TMat α) := sqMulLoop (mul O) 32 I A power

/-- tmatrix.h:563-607: returned flag and the output matrix (`none`: left untouched). -/
def exp (A : TMat α) (power : Int) : Res (Bool × Option (TMat α)) := do
  if !A.is_square then throw
  else do
    let a ← A.get 0 0
    let zero ← O.sub a a
    let o ← find_one O A
    match o with
    | none => if power ≤ 0 then throw else ok (true, some A)
    | some one => do
      let I ← make_I A zero one
      if 1 ≤ power then do
        let r ← posexp O A power.toNat I
        ok (true, some r)
      else do
        let ai ← inverse O A
        match ai with
        | (true, some B) =>
          if power = 0 then ok (true, some I)
          else do
            let n ← ineg power
            if power = n then throw
            else do
              let r ← posexp O B n.toNat I
              ok (true, some r)
        | _ => ok (false, none)

/-- tmatrix.h:1607-1616. -/
def trim_num_rows (A : TMat α) (n : Int) : Res (TMat α) :=
  if n < 1 ∨ (A.num_rows : Int) < n then throw else ok { A with num_rows := n.toNat }

end TMat
end Spffl
