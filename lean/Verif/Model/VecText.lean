import Verif.Model.PolyText
import Verif.Model.TMatrix

/-!
# Vectors and matrices as text

`operator<<`, `operator>>` and `bracket_in` of `tvector` and `tmatrix`, `/repo/spffl/containers/tvector.h:139-166, 521-605`
and `/repo/spffl/containers/tmatrix.h:89-110, 178-275, 1676-1803`.

The templates are instantiated with element types that bring their own `operator>>`, `operator<<` and subtraction: `EltIO`.
Texts are lists of ASCII characters other than NUL.  A vector that has been read is the list of its elements; that its array
may be longer is not represented.
-/

namespace Spffl.VText
open Res Scan PText

/-- What the containers use of the element type.  `read z cs` is `iss >> e` on a stream without state bits set, into an
object that holds `z`. -/
structure EltIO (α : Type) where
  sub : α → α → Res α
  read : α → List Char → Res (α × IStream)
  print : α → Res (List Char)

variable {α : Type} (E : EltIO α)

/-- One after the other, from the first to the last. -/
def each {β γ : Type} (f : β → Res γ) : List β → Res (List γ)
  | [] => ok []
  | b :: bs => do
    let c ← f b
    let cs ← each f bs
    ok (c :: cs)

/-! ### Vectors -/

/-- `operator<<`, `/repo/spffl/containers/tvector.h:521-531`. -/
def showVec (v : TVec α) : Res (List Char) := do
  let ts ← each E.print v
  ok (List.intercalate [' '] ts)

/-- The loop of `operator>>`, `/repo/spffl/containers/tvector.h:577-602`; the number of rounds is a parameter, the source has no
bound. -/
def vecLoop (zero : α) : Nat → List α → IStream → Res (List α × IStream)
  | 0, _, _ => timeout
  | n + 1, v, s =>
    if s.eof then ok (v, s)
    else do
      let r ← E.read zero s.cs
      if r.2.fail then ok (v, r.2) else vecLoop zero n (v ++ [r.1]) r.2

/-- `operator>>(istringstream &)`, `/repo/spffl/containers/tvector.h:554-605`, into the vector `v`. -/
def readVec (n : Nat) (v : TVec α) (cs : List Char) : Res (TVec α × IStream) :=
  match v with
  | [] => ok ([], ⟨cs, false, true⟩)
  | e :: _ => do
    let zero ← E.sub e e
    vecLoop E zero n [] (.ofChars cs)

/-- `is.getline(line, size)` on a stream without state bits set: what is stored, what is left, the end bit and the failure
bit. -/
def getLine (size : Nat) (cs : List Char) : List Char × List Char × Bool × Bool :=
  let l := cs.takeWhile (· ≠ '\n')
  if l.length < size then
    match cs.dropWhile (· ≠ '\n') with
    | [] => (l, [], true, l.isEmpty)
    | _ :: r => (l, r, false, false)
  else (l.take (size - 1), cs.drop (size - 1), false, true)

/-- `operator>>(istream &)`, `/repo/spffl/containers/tvector.h:536-547`. -/
def readVecLine (n : Nat) (v : TVec α) (cs : List Char) : Res (TVec α × IStream) :=
  let g := getLine 2048 cs
  do
    let r ← readVec E n v g.1
    ok (r.1, ⟨g.2.1, g.2.2.1, g.2.2.2 || r.2.fail⟩)

/-- What is before the last `c`. -/
def beforeLast (c : Char) (cs : List Char) : List Char := ((cs.reverse.dropWhile (· ≠ c)).drop 1).reverse

/-- `bracket_in`, `/repo/spffl/containers/tvector.h:139-166`; `none` is the return value `false`. -/
def vecBracket (n : Nat) (v : TVec α) (cs : List Char) : Res (Option (TVec α)) :=
  match cs.dropWhile (· ≠ '[') with
  | [] => ok none
  | _ :: r =>
    if ']' ∈ r then do
      let s ← readVec E n v (beforeLast ']' r)
      ok (if s.2.fail then none else some s.1)
    else ok none

/-! ### Matrices -/

/-- `check_ragged`, `/repo/spffl/containers/tmatrix.h:89-110`: the number of columns, or `none` for `false`. -/
def checkRagged (rows : List (TVec α)) : Option Nat :=
  let m := rows.foldl (fun (s : Nat × Nat) r =>
    (if r.length < s.1 then r.length else s.1, if s.2 < r.length then r.length else s.2)) (0x7fffffff, 0)
  if m.1 ≠ m.2 then none else some m.2

/-- `operator<<`, `/repo/spffl/containers/tmatrix.h:1676-1682`. -/
def showMat (A : TMat α) : Res (List Char) := do
  let ts ← each (showVec E) (A.rows.take A.num_rows)
  ok (ts.map (· ++ ['\n'])).flatten

/-- The rows of `[[...] [...]]`, `/repo/spffl/containers/tmatrix.h:220-236`. -/
def bracketRows (n : Nat) (zero : α) : List (List Char) → Res (Option (List (TVec α)))
  | [] => ok (some [])
  | t :: ts => vecBracket E n [zero] ('[' :: t) >>= fun o =>
    match o with
    | none => ok none
    | some r => bracketRows n zero ts >>= fun o => ok (o.map (r :: ·))

/-- `bracket_in`, `/repo/spffl/containers/tmatrix.h:178-275`; `none` is the return value `false`. -/
def matBracket (n : Nat) (A : TMat α) (cs : List Char) : Res (Option (TMat α)) :=
  if A.rows = [] ∨ A.num_rows < 1 ∨ A.num_cols < 1 then ok none
  else do
    let x ← A.get 0 0
    let y ← A.get 0 0
    let zero ← E.sub x y
    match cs.dropWhile (· ≠ '[') with
    | [] => ok none
    | _ :: r =>
      if ']' ∈ r then
        let inner := (beforeLast ']' r).dropWhile fun c => c = ' ' || c = '\t'
        if '[' ∈ inner then
          bracketRows E n zero (tokens '[' inner) >>= fun o =>
          match o with
          | none => ok none
          | some rows => ok ((checkRagged rows).map fun c => ⟨rows.length, c, rows⟩)
        else do
          let s ← readVec E n [zero] inner
          if s.2.fail then ok none else ok (some ⟨s.1.length, 1, s.1.map ([·])⟩)
      else ok none

/-- `tmx_buf_size`, `/repo/spffl/containers/tmatrix.h:1691`. -/
def bufSize : Nat := 65536

/-- How the loop that reads lines was left. -/
inductive Left
  | done
  | early
deriving DecidableEq, Repr

/-- The loop over the lines, `/repo/spffl/containers/tmatrix.h:1712-1779`.  `d` is how far `pline` has moved on from the
start of the buffer of 65536 characters, while `getline` is told that there is room for all of them. -/
def matLoop (k : Nat) (zero : α) : Nat → Nat → List (TVec α) → List Char → Res (List (TVec α) × IStream × Left)
  | 0, _, _, _ => timeout
  | n + 1, d, rows, cs =>
    let g := getLine bufSize cs
    if bufSize < d + g.1.length + 1 then ub
    else if g.2.2.1 then ok (rows, ⟨g.2.1, false, false⟩, .done)
    else if g.2.2.2 then ok (rows, ⟨g.2.1, false, true⟩, .done)
    else
      let l := g.1.takeWhile (· ≠ '#')
      let d' := d + (l.takeWhile isSpace).length
      let t := ((l.dropWhile isSpace).reverse.dropWhile isSpace).reverse
      if t.all isSpace then
        if rows = [] then matLoop k zero n d' rows g.2.1 else ok (rows, ⟨g.2.1, false, false⟩, .done)
      else do
        let r ← readVec E k [zero] t
        if r.2.fail then ok (rows, ⟨g.2.1, false, true⟩, .early) else matLoop k zero n d' (rows ++ [r.1]) g.2.1

/-- After the loop, `/repo/spffl/containers/tmatrix.h:1781-1803`.  The bad bit is shown as the failure bit. -/
def matFinish (r : List (TVec α) × IStream × Left) : TMat α × IStream :=
  match r.2.2 with
  | .early => (⟨r.1.length, 0, r.1⟩, r.2.1)
  | .done =>
    let p := r.2.1.peek
    let s := if p.1 = none then { p.2 with eof := true } else p.2
    if r.1 = [] then (⟨0, 0, []⟩, { s with fail := true })
    else
      match checkRagged r.1 with
      | none => (⟨r.1.length, 0, r.1⟩, { s with fail := true })
      | some c => (⟨r.1.length, c, r.1⟩, s)

/-- `operator>>`, `/repo/spffl/containers/tmatrix.h:1690-1803`, into the matrix `A`.  The matrix has at most as many lines as
the text, so the rounds are bounded; `k` bounds those of each row. -/
def readMat (k : Nat) (A : TMat α) (cs : List Char) : Res (TMat α × IStream) :=
  if A.rows = [] ∨ A.num_rows < 1 ∨ A.num_cols < 1 then ok (A, ⟨cs, false, true⟩)
  else do
    let x ← A.get 0 0
    let y ← A.get 0 0
    let zero ← E.sub x y
    let r ← matLoop E k zero (cs.length + 1) 0 [] cs
    ok (matFinish r)

/-! ### Element types -/

/-- `int` -/
def intIO : EltIO Int where
  sub a b := chk (a - b)
  read z cs := ok (extractInt z (.ofChars cs))
  print a := ok (showInt a)

/-- `intmod_t` -/
def modIO : EltIO IntMod where
  sub := IntMod.sub
  read := extractMod
  print := showMod

/-- `intrat_t` -/
def ratIO : EltIO IntRat where
  sub := IntRat.sub
  read := extractRat
  print a := ok (showRat a)

/-- `f2_poly_t` -/
def f2IO : EltIO F2P where
  sub := F2P.sub
  read _ cs := do
    let r ← F2P.read cs
    ok (r.1, ⟨r.2.2, r.2.2.isEmpty, r.2.1⟩)
  print := F2P.print

/-- `f2_polymod_t` -/
def f2ModIO : EltIO F2Mod where
  sub := F2Mod.sub
  read := f2ModExtract
  print := f2ModShow

/-- `fp_poly_t`.  An object left pointing to deleted memory deletes it again. -/
def fpIO : EltIO (CPoly IntMod) where
  sub := CPoly.sub IntMod.cops
  read z cs := fpExtract z cs >>= fun r =>
    match r.1 with
    | .dangling => ub
    | .refused p => ok (p, r.2)
    | .val p => ok (p, r.2)
  print := fpShow

/-- `fp_polymod_t` -/
def fpModIO : EltIO (CMod IntMod) where
  sub := CMod.sub IntMod.cops
  read := fpModExtract
  print := fpModShow

/-- `f2n_poly_t` -/
def f2nIO : EltIO (CPoly F2Mod) where
  sub := CPoly.sub F2Mod.cops
  read := f2nExtract true
  print := f2nShow

/-- `f2n_polymod_t` -/
def f2nModIO : EltIO (CMod F2Mod) where
  sub := CMod.sub F2Mod.cops
  read := f2nModExtract
  print := f2nModShow

/-- `fpn_poly_t` -/
def fpnIO : EltIO (CPoly (CMod IntMod)) where
  sub := CPoly.sub FpMod.cops
  read := fpnExtract
  print := fpnShow

/-- `fpn_polymod_t` -/
def fpnModIO : EltIO (CMod (CMod IntMod)) where
  sub := CMod.sub FpMod.cops
  read := fpnModExtract
  print := fpnModShow

end Spffl.VText
