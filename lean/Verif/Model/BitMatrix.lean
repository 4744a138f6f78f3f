/-
Model of bit_matrix_t (spffl/bits/bit_matrix_t.h, bit_matrix_t.cpp): matrices over F2 with one bit_vector_t
per row.

`rows[i]` is a raw pointer access (undefined out of range), `m[i]` is checked; the accessors of the row
(`get`, `set`) check the column.  Row assignment is `BV.assign`, so the storage of every row is tracked.
The pointer array `ptrs` of row_reduce_below_with_scalar always equals the rows' own `words` pointers and is
not modelled separately.
-/
import Verif.Model.BitVector

namespace Spffl
open Res

structure BM where
  num_rows : Nat
  num_cols : Nat
  rows : List BV
deriving Repr, DecidableEq

namespace BM

/-- bit_matrix_t.cpp:67. -/
def empty : BM := ⟨0, 0, []⟩

/-- `rows[i] = v` -/
def assignRow (rs : List BV) (i : Nat) (v : BV) : Res (List BV) := do
  let o ← rd rs i
  let x ← BV.assign o v
  wr rs i x

/-- bit_matrix_t.cpp:16-31. -/
def alloc (r c : Int) : Res BM :=
  if r ≤ 0 ∨ c ≤ 0 then throw
  else do
    let rs ← forUp 0 r.toNat (List.replicate r.toNat BV.empty) fun i rs => do
      let v ← BV.alloc c
      assignRow rs i v
    ok ⟨r.toNat, c.toNat, rs⟩

/-- bit_matrix_t.cpp:34-48 and 51-65. -/
def fill (tm : TrimMask) (b : Bool) (r c : Int) : Res BM :=
  if r ≤ 0 ∨ c ≤ 0 then throw
  else do
    let rs ← forUp 0 r.toNat (List.replicate r.toNat BV.empty) fun i rs => do
      let v ← BV.fill tm b c
      assignRow rs i v
    ok ⟨r.toNat, c.toNat, rs⟩

/-- bit_matrix_t.cpp:70-79. -/
def copy (that : BM) : Res BM := do
  let rs ← forUp 0 that.num_rows (List.replicate that.num_rows BV.empty) fun i rs => do
    let v ← rd that.rows i
    assignRow rs i v
  ok ⟨that.num_rows, that.num_cols, rs⟩

/-- bit_matrix_t.cpp:138-157 -/
def assign (this that : BM) : Res BM := do
  let base ← (if this.num_rows = that.num_rows ∧ this.num_cols = that.num_cols then ok this.rows
    else forUp 0 that.num_rows (List.replicate that.num_rows BV.empty) fun i rs => do
      let v ← BV.alloc that.num_cols
      assignRow rs i v)
  let rs ← forUp 0 that.num_rows base fun i rs => do
    let v ← rd that.rows i
    assignRow rs i v
  ok ⟨that.num_rows, that.num_cols, rs⟩

/-- bit_matrix_t.cpp:293-301: `m[i]`. -/
def row (A : BM) (i : Nat) : Res BV := if i < A.num_rows then rd A.rows i else throw

/-- `rows[i].get(j)` -/
def get (A : BM) (i j : Nat) : Res Bool := do
  let r ← rd A.rows i
  BV.get r j

/-- `rows[i].set(j, b)` -/
def put (A : BM) (i j : Nat) (b : Bool) : Res BM := do
  let r ← rd A.rows i
  let r' ← BV.set r j b
  let rs ← wr A.rows i r'
  ok { A with rows := rs }

/-- `m[i].set(j, b)` -/
def cput (A : BM) (i j : Nat) (b : Bool) : Res BM := if i < A.num_rows then put A i j b else throw

/-- `m[i].toggle_element(j)` -/
def ctoggle (A : BM) (i j : Nat) : Res BM :=
  if i < A.num_rows then do
    let r ← rd A.rows i
    let r' ← BV.toggle_element r j
    let rs ← wr A.rows i r'
    ok { A with rows := rs }
  else throw

/-- bit_matrix_t.cpp:978-987. -/
def check_dims (A B : BM) : Res Unit :=
  if A.num_rows ≠ B.num_rows ∨ A.num_cols ≠ B.num_cols then throw else ok ()

/-- bit_matrix_t.cpp:160-168, rows from `i`, `k` rows left -/
def eqLoop (A B : BM) : Nat → Nat → Res Bool
  | 0, _ => ok true
  | k + 1, i => do
    let x ← rd A.rows i
    let y ← rd B.rows i
    let e ← BV.eq x y
    if !e then ok false else eqLoop A B k (i + 1)

def eq (A B : BM) : Res Bool := do
  check_dims A B
  eqLoop A B A.num_rows 0

/-- bit_matrix_t.cpp:304-311 (and 314-328, the same with `-`): `rv[i] = rows[i] + that.rows[i]`. -/
def add (A B : BM) : Res BM := do
  check_dims A B
  let rv ← alloc A.num_rows A.num_cols
  let rs ← forUp 0 A.num_rows rv.rows fun i rs => do
    let x ← rd A.rows i
    let y ← rd B.rows i
    let z ← BV.add x y
    assignRow rs i z
  ok { rv with rows := rs }

/-- bit_matrix_t.cpp:556-562. -/
def is_square (A : BM) : Bool := A.num_rows == A.num_cols

/-- bit_matrix_t.cpp:336-349 (and 352-365): scalar added to the diagonal. -/
def addScalar (A : BM) (b : Bool) : Res BM :=
  if !A.is_square then throw
  else do
    let rv ← copy A
    if b then forUp 0 A.num_rows rv fun i s => ctoggle s i i else ok rv

/-- bit_matrix_t.cpp:368-389: matrix times vector. -/
def mulVec (tm : TrimMask) (A : BM) (v : BV) : Res BV :=
  if A.num_cols ≠ v.num_bits then throw
  else do
    let rv ← BV.fill tm false A.num_rows
    forUp 0 A.num_rows rv fun i s => forUp 0 A.num_cols s fun j s => do
      let x ← BV.get s i
      let a ← A.get i j
      let b ← BV.get v j
      BV.set s i (x ^^ (a && b))

/-- bit_matrix_t.cpp:512-520. -/
def transpose (A : BM) : Res BM := do
  let rv ← alloc A.num_cols A.num_rows
  forUp 0 A.num_rows rv fun i s => forUp 0 A.num_cols s fun j s => do
    let b ← A.get i j
    put s j i b

/-- bit_matrix_t.cpp:444-469: matrix product. -/
def mul (tm : TrimMask) (A B : BM) : Res BM :=
  if A.num_cols ≠ B.num_rows then throw
  else do
    let rv ← fill tm false A.num_rows B.num_cols
    let Bt ← transpose B
    forUp 0 A.num_rows rv fun i s => forUp 0 Bt.num_rows s fun j s => do
      let x ← rd A.rows i
      let y ← rd Bt.rows j
      let d ← BV.dot x y
      if d then cput s i j true else ok s

/-- bit_matrix_t.cpp:499-509; `rv` stays default constructed, so `rv[0]` is already out of bounds. -/
def outer (u v : BV) : Res BM :=
  forUp 0 u.num_bits empty fun i s => forUp 0 v.num_bits s fun j s => do
    let x ← BV.get u i
    let y ← BV.get v j
    cput s i j (x && y)

/-- bit_matrix_t.cpp:525-543. -/
def make_I (A : BM) : Res BM :=
  if !A.is_square then throw
  else do
    let rv ← copy A
    forUp 0 A.num_rows rv fun i s => forUp 0 A.num_cols s fun j s => put s i j (i = j)

/-- bit_matrix_t.cpp:546-553, rows from `i`, `k` left -/
def isZeroLoop (A : BM) : Nat → Nat → Res Bool
  | 0, _ => ok true
  | k + 1, i => do
    let r ← rd A.rows i
    let z ← BV.is_zero r
    if !z then ok false else isZeroLoop A k (i + 1)

def is_zero (A : BM) : Res Bool := isZeroLoop A A.num_rows 0

/-- bit_matrix_t.cpp:572-576: all diagonal entries one, from `i`, `k` left -/
def diagOne (A : BM) : Nat → Nat → Res Bool
  | 0, _ => ok true
  | k + 1, i => do
    let b ← A.get i i
    if !b then ok false else diagOne A k (i + 1)

/-- bit_matrix_t.cpp:577-588: entries `j, j+1, ..` (`k` of them) of row `i` off the diagonal are zero -/
def offRow (A : BM) (i : Nat) : Nat → Nat → Res Bool
  | 0, _ => ok true
  | k + 1, j => do
    if j = i then offRow A i k (j + 1)
    else do
      let b ← A.get i j
      if b then ok false else offRow A i k (j + 1)

def offDiag (A : BM) : Nat → Nat → Res Bool
  | 0, _ => ok true
  | k + 1, i => do
    let b ← offRow A i A.num_cols 0
    if !b then ok false else offDiag A k (i + 1)

/-- bit_matrix_t.cpp:565-590. -/
def is_I (A : BM) : Res Bool :=
  if !A.is_square then ok false
  else do
    let d ← diagOne A A.num_rows 0
    if !d then ok false else offDiag A A.num_rows 0

/-- bit_matrix_t.cpp:602-604. -/
def swap (A : BM) (a b : Nat) : Res BM := do
  let x ← rd A.rows a
  let y ← rd A.rows b
  let xy ← BV.ptrswap x y
  let rs ← wr A.rows a xy.1
  let rs ← wr rs b xy.2
  ok { A with rows := rs }

/-- bit_matrix_t.cpp:657-677: first row from `p` on (`k` left) with a one in column `col` -/
def findPivot (A : BM) (col : Nat) : Nat → Nat → Res (Option Nat)
  | 0, _ => ok none
  | k + 1, p => do
    let r ← rd A.rows p
    let b ← BV.getBit r.words col
    if b then ok (some p) else findPivot A col k (p + 1)

/-- bit_matrix_t.cpp:686-693: clear column `left` below row `top` -/
def clearBelow (A : BM) (top left : Nat) : Res BM :=
  forUp (top + 1) A.num_rows A fun row A => do
    let r ← rd A.rows row
    let b ← BV.getBit r.words left
    if b then do
      let t ← rd A.rows top
      let r' ← BV.accum_row r t
      let rs ← wr A.rows row r'
      ok { A with rows := rs }
    else ok A

/-- bit_matrix_t.cpp:663-668 -/
def pivotSwap (A : BM) (top p : Nat) : Res BM := if top ≠ p then swap A top p else ok A

/-- bit_matrix_t.cpp:683-694 -/
def clearIf (A : BM) (top left : Nat) : Res BM := do
  let r ← rd A.rows top
  let lead ← BV.getBit r.words left
  if lead then clearBelow A top left else ok A

/-- bit_matrix_t.cpp:650-697; `left_column` increases in every iteration, so `num_cols` iterations are enough. -/
def rrLoop : Nat → BM → Nat → Nat → Res BM
  | 0, A, top, left => if top < A.num_rows ∧ left < A.num_cols then timeout else ok A
  | k + 1, A, top, left =>
    if top < A.num_rows ∧ left < A.num_cols then
      if top < A.num_rows - 1 then do
        let p ← findPivot A left (A.num_rows - top) top
        match p with
        | none => rrLoop k A top (left + 1)
        | some p => do
          let A ← pivotSwap A top p
          let A ← clearIf A top left
          rrLoop k A (top + 1) (left + 1)
      else do
        let A ← clearIf A top left
        rrLoop k A (top + 1) (left + 1)
    else ok A

/-- bit_matrix_t.cpp:644-698; the scalar is always 1. -/
def row_reduce_below_with_scalar (A : BM) : Res (BM × Bool) := do
  let A ← rrLoop A.num_cols A 0 0
  ok (A, true)

/-- bit_matrix_t.cpp:703-706. -/
def row_reduce_below (A : BM) : Res BM := do
  let r ← row_reduce_below_with_scalar A
  ok r.1

/-- bit_matrix_t.cpp:718-730: rows `row2, ...` (`k` left) used to clear row `row` -/
def clearRow (row : Nat) : Nat → BM → Nat → Res BM
  | 0, A, _ => ok A
  | k + 1, A, row2 => do
    let r2 ← rd A.rows row2
    let l ← BV.find_leader_pos r2
    match l with
    | none => ok A
    | some pos => do
      let lead2 ← BV.get r2 pos
      let r ← rd A.rows row
      let lead ← BV.get r pos
      if !lead then clearRow row k A (row2 + 1)
      else if !lead2 then throw
      else do
        let t ← BV.smul r2 lead
        let r' ← BV.xorAssign r t
        let rs ← wr A.rows row r'
        clearRow row k { A with rows := rs } (row2 + 1)

/-- bit_matrix_t.cpp:711-732. -/
def row_echelon_form (A : BM) : Res BM := do
  let A ← row_reduce_below A
  forUp 0 A.num_rows A fun row A => clearRow row (A.num_rows - (row + 1)) A (row + 1)

/-- bit_matrix_t.cpp:745-755, rows from `i`, `k` left -/
def rankLoop (A : BM) : Nat → Nat → Nat → Res Nat
  | 0, _, rank => ok rank
  | k + 1, i, rank => do
    let r ← rd A.rows i
    let z ← BV.is_zero r
    if z then ok rank else rankLoop A k (i + 1) (rank + 1)

/-- bit_matrix_t.cpp:745-755. -/
def get_rank_rr (A : BM) : Res Nat := rankLoop A A.num_rows 0 0

/-- bit_matrix_t.cpp:737-741. -/
def get_rank (A : BM) : Res Nat := do
  let rr ← copy A
  let rr ← row_reduce_below rr
  get_rank_rr rr

/-- bit_matrix_t.cpp:775-783 -/
def freeFlags (rr : BM) (num_cols rank : Nat) : Res (List Bool) :=
  forUp 0 rank (List.replicate num_cols true) fun i fl => do
    let r ← rd rr.rows i
    let l ← BV.find_leader_pos r
    match l with
    | none => ok fl
    | some p => wr fl p false

/-- bit_matrix_t.cpp:785-789 -/
def freeIndices (fl : List Bool) (n : Nat) : Res (List Nat × Nat) :=
  forUp 0 n (List.replicate n 0, 0) fun i st => do
    let f ← rd fl i
    if f then do
      let l ← wr st.1 st.2 i
      ok (l, st.2 + 1)
    else ok st

/-- bit_matrix_t.cpp:818-825 -/
def depLoop (rr : BM) (rank fi i : Nat) (basis : BM) : Res BM :=
  forUp 0 rank basis fun j basis => do
    let b ← rr.get j fi
    if !b then ok basis
    else do
      let r ← rd rr.rows j
      let l ← BV.find_leader_pos r
      match l with
      | none => ub
      | some p => do
        let b ← rr.get j fi
        put basis i p b

/-- bit_matrix_t.cpp:758-833; `none` is the result `false`.  The output parameter is assigned from `basis` by
bit_matrix_t's operator=; the callers pass a default constructed matrix. -/
def get_kernel_basis (tm : TrimMask) (A : BM) : Res (Option BM) := do
  let rr ← copy A
  let rr ← row_echelon_form rr
  let rank ← get_rank_rr rr
  let dimker := rr.num_cols - rank
  if dimker = 0 then ok none
  else do
    let basis ← fill tm false dimker rr.num_cols
    let fl ← freeFlags rr A.num_cols rank
    let fi ← freeIndices fl A.num_cols
    let basis ← forUp 0 dimker basis fun i basis => do
      let f ← rd fi.1 i
      let basis ← put basis i f true
      depLoop rr rank f i basis
    let rbas ← assign empty basis
    ok (some rbas)

/-- bit_matrix_t.cpp:859-880. -/
def paste (A B : BM) : Res BM :=
  if A.num_rows ≠ B.num_rows then throw
  else do
    let rv ← alloc A.num_rows (A.num_cols + B.num_cols : Nat)
    let rs ← forUp 0 A.num_rows rv.rows fun i rs => do
      let v ← rd A.rows i
      assignRow rs i v
    forUp 0 A.num_rows { rv with rows := rs } fun i s => forUp 0 B.num_cols s fun j s => do
      let b ← B.get i j
      put s i (A.num_rows + j) b

/-- bit_matrix_t.cpp:883-908. -/
def split (A : BM) (split_column : Nat) : Res (BM × BM) :=
  if A.num_cols ≤ split_column then throw
  else do
    let l ← alloc A.num_rows split_column
    let r ← alloc A.num_rows (A.num_cols - split_column : Nat)
    let l ← forUp 0 A.num_rows l fun i s => forUp 0 split_column s fun j s => do
      let b ← A.get i j
      put s i j b
    let r ← forUp 0 A.num_rows r fun i s => forUp split_column A.num_cols s fun j s => do
      let b ← A.get i j
      put s i (j - split_column) b
    ok (l, r)

/-- bit_matrix_t.cpp:911-924: the returned flag and the output parameter. -/
def inverse (A : BM) : Res (Bool × BM) :=
  if !A.is_square then throw
  else do
    let I ← make_I A
    let pair ← paste A I
    let pair ← row_echelon_form pair
    let lr ← split pair A.num_cols
    let b ← is_I lr.1
    ok (b, lr.2)

/-- bit_matrix_t.cpp:938-954 -/
def detLoop (rr : BM) : Nat → Nat → Res Bool
  | 0, _ => ok true
  | k + 1, i => do
    let b ← rr.get i i
    if !b then ok false else detLoop rr k (i + 1)

def det (A : BM) : Res Bool :=
  if !A.is_square then throw
  else do
    let rr ← copy A
    let rr ← row_reduce_below_with_scalar rr
    detLoop rr.1 A.num_rows 0

/-- bit_matrix_t.cpp:394-406: square and multiply; `power` is positive. -/
def posexp (tm : TrimMask) (A : BM) (power : Nat) (I : BM) : Res BM := sqMulLoop (mul tm) 32 I A power

/-- bit_matrix_t.cpp:413-441; `none` is the return value 0. -/
def exp (tm : TrimMask) (A : BM) (power : Int) : Res (Option BM) :=
  if !A.is_square then throw
  else do
    let I ← make_I A
    if 1 ≤ power then do
      let r ← posexp tm A power.toNat I
      ok (some r)
    else do
      let ai ← inverse A
      if !ai.1 then ok none
      else if power = 0 then ok (some I)
      else do
        let n ← ineg power
        if power = n then throw
        else do
          let r ← posexp tm ai.2 n.toNat I
          ok (some r)

end BM
end Spffl
