/-
Model of the row reduction and determinant of tmatrix over a Euclidean domain (spffl/containers/tmatrix.h:1430-1604,
tvector.h:393-409).  The matrix keeps integral entries; the determinant is tracked as a fraction
`snumer / sdenom`.
-/
import Verif.Model.TMatrix
import Verif.Model.CoefInst

namespace Spffl
open Res

/-- what the `ed_` methods use of `element_type` -/
structure EDOps (α : Type) extends TOps α where
  mod : α → α → Res α
  /-- the free function `gcd(a, b)` -/
  gcd : α → α → Res α

namespace TVec
variable {α : Type} (O : EDOps α)

/-- tvector.h:403-409. -/
def vgcd (v : TVec α) : Res α := do
  let x ← rd v 0
  forUp 1 v.length x fun i rv => do
    let y ← rd v i
    O.gcd rv y

/-- tvector.h:393-398: `/= e`, in place. -/
def div_by (v : TVec α) (e : α) : Res (TVec α) :=
  forUp 0 v.length v fun i s => store s i (do
    let x ← rd s i
    O.div x e)

end TVec

/-- The variables of the elimination: the matrix and the two scalars. -/
structure EDSt (α : Type) where
  A : TMat α
  sn : α
  sd : α

namespace TMat
variable {α : Type} (O : EDOps α)

/-- tmatrix.h:1470-1474, 1481-1485 and 1495-1499: divide a row by the gcd of its entries. -/
def edNorm (zero : α) (i : Nat) (st : EDSt α) : Res (EDSt α) := do
  let v ← rd st.A.rows i
  let g ← TVec.vgcd O v
  let d ← TVec.ne O.toTOps g zero
  if d then do
    let A ← st.A.setRow i (TVec.div_by O v g)
    let sn ← O.mul st.sn g
    ok ⟨A, sn, st.sd⟩
  else ok st

/-- tmatrix.h:1452-1455: bring the pivot row to the top. -/
def edSwap (zero : α) (top piv : Nat) (st : EDSt α) : Res (EDSt α) :=
  if top ≠ piv then do
    let A ← st.A.swap top piv
    let sn ← O.sub zero st.sn
    ok ⟨A, sn, st.sd⟩
  else ok st

/-- tmatrix.h:1501-1505: cancel the common factor of the two scalars. -/
def edCancel (zero : α) (st : EDSt α) : Res (EDSt α) := do
  let g ← O.gcd st.sn st.sd
  let d ← TVec.ne O.toTOps g zero
  if d then do
    let sn ← O.div st.sn g
    let sd ← O.div st.sd g
    ok ⟨st.A, sn, sd⟩
  else ok st

/-- tmatrix.h:1486-1493: clear the entry of row `cur` below the pivot. -/
def edElim (lead : α) (top left cur : Nat) (st : EDSt α) : Res (EDSt α) := do
  let cl ← st.A.get cur left
  let g ← O.gcd lead cl
  let tm ← O.div cl g
  let cm ← O.div lead g
  let A ← st.A.setRow cur (do
    let v ← rd st.A.rows cur
    let t ← rd st.A.rows top
    TVec.accum_row_mul O.toTOps v cm tm t)
  let sd ← O.mul st.sd cm
  ok ⟨A, st.sn, sd⟩

/-- tmatrix.h:1481-1505: one round of the clearing loop. -/
def edStep (zero lead : α) (top left cur : Nat) (st : EDSt α) : Res (EDSt α) := do
  let st ← edNorm O zero cur st
  let st ← edElim O lead top left cur st
  let st ← edNorm O zero cur st
  edCancel O zero st

/-- tmatrix.h:1470-1507: normalise the pivot row, then clear the column below it. -/
def edClear (zero : α) (top left : Nat) (st : EDSt α) : Res (EDSt α) := do
  let st ← edNorm O zero top st
  let lead ← st.A.get top left
  let d ← TVec.ne O.toTOps lead zero
  if d then forUp (top + 1) st.A.num_rows st fun cur st => edStep O zero lead top left cur st
  else ok st

/-- tmatrix.h:1443-1510: the elimination loop; one column is consumed per iteration. -/
def edLoop (zero : α) : Nat → EDSt α → Nat → Nat → Res (EDSt α)
  | 0, st, top, left => if top < st.A.num_rows ∧ left < st.A.num_cols then timeout else ok st
  | k + 1, st, top, left =>
    if top < st.A.num_rows ∧ left < st.A.num_cols then do
      let piv ← findPivot O.toTOps st.A zero left (st.A.num_rows - top) top
      match piv with
      | none => edLoop zero k st top (left + 1)
      | some p => do
        let st ← edSwap O zero top p st
        let st ← edClear O zero top left st
        edLoop zero k st (top + 1) (left + 1)
    else ok st

/-- tmatrix.h:1430-1511, in place on `A`.  `sn` and `sd` are the caller's objects.  For a zero matrix only
`snumer` is assigned. -/
def ed_row_reduce_below_with_scalar (A : TMat α) (_sn sd : α) : Res (EDSt α) := do
  let a ← A.get 0 0
  let zero ← O.sub a a
  let o ← find_one O.toTOps A
  match o with
  | none => ok ⟨A, zero, sd⟩
  | some one => edLoop O zero A.num_cols ⟨A, one, one⟩ 0 0

/-- tmatrix.h:1514-1517. -/
def ed_row_reduce_below (A : TMat α) : Res (TMat α) := do
  let r ← ed_row_reduce_below_with_scalar O A O.dflt O.dflt
  ok r.A

/-- tmatrix.h:1520-1544. -/
def ed_det (A : TMat α) : Res α := do
  if !A.is_square then throw
  else do
    let r ← ed_row_reduce_below_with_scalar O A O.dflt O.dflt
    let dn ← forUp 0 A.num_rows r.sn fun i dn => do
      let x ← r.A.get i i
      O.mul dn x
    let zero ← O.sub dn dn
    let rem ← O.mod dn r.sd
    let quot ← O.div dn r.sd
    let d ← TVec.ne O.toTOps rem zero
    if d then throw else ok quot

/-- tmatrix.h:1562-1580: clear row `row` at the leaders of the rows `row2, row2 + 1, ...` (`k` rows left). -/
def edClearRow (zero : α) (row : Nat) : Nat → TMat α → Nat → Res (TMat α)
  | 0, A, _ => ok A
  | k + 1, A, row2 => do
    let r2 ← rd A.rows row2
    let l ← TVec.find_leader_pos O.toTOps zero r2
    match l with
    | none => ok A
    | some pos => do
      let lead ← A.get row2 pos
      let cv ← A.get row pos
      let e ← O.eq cv zero
      if e then edClearRow zero row k A (row2 + 1)
      else do
        let A ← A.setRow row (do
          let r ← rd A.rows row
          TVec.accum_row_mul O.toTOps r lead cv r2)
        let v ← rd A.rows row
        let g ← TVec.vgcd O v
        let d ← TVec.ne O.toTOps g zero
        let A ← (if d then A.setRow row (TVec.div_by O v g) else ok A)
        edClearRow zero row k A (row2 + 1)

/-- tmatrix.h:1554-1582. -/
def ed_row_echelon_form (A : TMat α) : Res (TMat α) := do
  let A ← ed_row_reduce_below O A
  let a ← A.get 0 0
  let zero ← O.sub a a
  forUp 0 A.num_rows A fun row A => edClearRow O zero row (A.num_rows - (row + 1)) A (row + 1)

/-- tmatrix.h:1584-1604: returned flag and the output matrix (`none`: left untouched). -/
def ed_inverse (A : TMat α) : Res (Bool × Option (TMat α)) := do
  let a ← A.get 0 0
  let zero ← O.sub a a
  if !A.is_square then throw
  else do
    let o ← find_one O.toTOps A
    match o with
    | none => ok (false, none)
    | some one => do
      let I ← make_I A zero one
      let pair ← paste O.toTOps A I
      let pair ← ed_row_echelon_form O pair
      let lr ← split O.toTOps pair A.num_cols
      let b ← is_I O.toTOps lr.1
      ok (b, some lr.2)

end TMat

/-- f2_poly_t as a matrix element (default constructor: f2_poly_t.cpp:27-30). -/
def F2P.edops : EDOps F2P where
  add := F2P.add
  sub := F2P.sub
  mul := F2P.mul
  div := F2P.div
  neg := F2P.neg
  eq := F2P.eq
  lt := F2P.lt
  dflt := F2P.zero
  mod := F2P.mod
  gcd := F2P.gcd

/-- fp_poly_t and f2n_poly_t as matrix elements.  `d` is the coefficient stored by the default constructor
(fp_poly_t.cpp:16-21, f2n_poly_t.cpp:16-21). -/
def CPoly.edops {α : Type} (O : CoefOps α) (d : α) : EDOps (CPoly α) where
  add := CPoly.add O
  sub := CPoly.sub O
  mul := CPoly.mul O
  div := CPoly.div O
  neg := CPoly.neg O
  eq := CPoly.eq O
  lt := CPoly.lt O
  dflt := ⟨0, [d]⟩
  mod := CPoly.mod O
  gcd := CPoly.gcd O

end Spffl
