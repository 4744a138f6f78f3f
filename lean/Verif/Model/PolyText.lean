import Verif.Model.Scan
import Verif.Model.CoefInst
import Verif.Model.CMod
import Verif.Model.F2Poly

/-!
# Polynomials as text

`operator<<`, `operator>>` and `from_string` of `fp_poly_t`, `f2n_poly_t`, `fpn_poly_t`, `q_poly_t` and of the residue
types `fp_polymod_t`, `f2_polymod_t`, `f2n_polymod_t`, `fpn_polymod_t` (`/repo/spffl/polynomials/*.cpp`).

Texts are lists of ASCII characters other than NUL.  `tokenize` (`/repo/spffl/base/tokenize.cpp:26-66`) with one separator is
`tokens`; `Verif/Model/Text.lean` has its code, and C69 with `tokens_map` says that it computes this.  Reading starts on
a stream without state bits set.
-/

namespace Spffl.PText
open Res Scan

/-- What `from_string` leaves: a value; `false` with the array as far as it was filled; or `false` with the member
pointing to the array it has deleted. -/
inductive Parsed (α : Type) where
  | val (p : CPoly α)
  | refused (p : CPoly α)
  | dangling
deriving DecidableEq, Repr

/-- The non-empty stretches between separators. -/
def tokens (sep : Char) (cs : List Char) : List (List Char) := (cs.splitOnP (· == sep)).filter (· ≠ [])

/-- The coefficients read one after the other: those before the first failure, and whether there was none. -/
def readCoefs {α β : Type} (one : β → Res (Option α)) : List β → Res (List α × Bool)
  | [] => ok ([], true)
  | t :: ts => one t >>= fun o =>
    match o with
    | none => ok ([], false)
    | some a => do
      let r ← readCoefs one ts
      ok (a :: r.1, r.2)

/-- The array of `n` coefficients filled from the top with those read; then `recompute_degree` if all were. -/
def finish {α : Type} (O : CoefOps α) (n : Nat) (r : List α × Bool) : Res (Parsed α) :=
  if r.2 then do
    let p ← CPoly.recompute_degree O ⟨n - 1, r.1.reverse⟩
    ok (.val p)
  else ok (.refused ⟨n - 1, List.replicate (n - r.1.length) O.dflt ++ r.1.reverse⟩)

/-- The branch that tokenizes. -/
def fromTokens {α : Type} (O : CoefOps α) (one : List Char → Res (Option α)) (ts : List (List Char)) : Res (Parsed α) :=
  if ts = [] then ok .dangling
  else do
    let r ← readCoefs one ts
    finish O ts.length r

/-- `for (i = n - 1; i >= 0; i--)` over the texts of the coefficients. -/
def down (f : Nat → Res (List Char)) : Nat → Res (List (List Char))
  | 0 => ok []
  | i + 1 => do
    let t ← f i
    let r ← down f i
    ok (t :: r)

/-! ### fp_poly_t -/

/-- One digit, `/repo/spffl/polynomials/fp_poly_t.cpp:844-853`. -/
def fpDigit (p : Int) (c : Char) : Res (Option IntMod) :=
  if isDig c then do
    let a ← IntMod.mk' (digVal c) p
    ok (some a)
  else ok none

/-- `fp_poly_t::from_string`, `/repo/spffl/polynomials/fp_poly_t.cpp:823-887`.  One coefficient after a comma is read as
in `intmod_t::from_string`.  For the empty text `recompute_degree` reads an array of length 0. -/
def fpFromString (p : Int) (cs : List Char) : Res (Parsed IntMod) :=
  if ',' ∉ cs ∧ p < 10 then do
    let r ← readCoefs (fpDigit p) cs
    finish IntMod.cops cs.length r
  else fromTokens IntMod.cops (modFromString p) (tokens ',' cs)

/-- `operator<<`, `/repo/spffl/polynomials/fp_poly_t.cpp:759-773`. -/
def fpShow (a : CPoly IntMod) : Res (List Char) := do
  let c ← CPoly.get_coeff IntMod.cops a 0
  let ts ← down (fun i => do
    let c ← CPoly.get_coeff IntMod.cops a i
    ok (showInt c.residue)) (a.degree + 1)
  ok (List.intercalate (if 9 < c.modulus then [','] else []) ts)

def fpChar (c : Char) : Bool := isDig c || c = ','

/-- `operator>>`, `/repo/spffl/polynomials/fp_poly_t.cpp:778-820`, into an object holding `a`. -/
def fpExtract (a : CPoly IntMod) (cs : List Char) : Res (Parsed IntMod × IStream) := do
  let c0 ← rd a.coeffs 0
  match cs.dropWhile blank with
  | [] => ok (.val a, ⟨[], true, true⟩)
  | cs =>
    let t := cs.takeWhile fpChar
    let rest := cs.dropWhile fpChar
    if t = [] then ok (.val a, ⟨rest, false, true⟩)
    else do
      let r ← fpFromString c0.modulus t
      match r with
      | .val p => ok (.val p, ⟨rest, rest.isEmpty, false⟩)
      | r => ok (r, ⟨rest, rest.isEmpty, true⟩)

/-! ### f2n_poly_t -/

/-- `iss >> r` for an `f2_poly_t`, then the residue, `/repo/spffl/polynomials/f2n_poly_t.cpp:911-922`; also
`f2_polymod_t::from_string`, `/repo/spffl/polynomials/f2_polymod_t.cpp:197-207`. -/
def f2nOne (m : F2P) (t : List Char) : Res (Option F2Mod) := do
  let r ← F2P.read t
  if r.2.1 then ok none
  else do
    let a ← F2Mod.mk' r.1 m
    ok (some a)

/-- `f2n_poly_t::from_string`, `/repo/spffl/polynomials/f2n_poly_t.cpp:884-929`. -/
def f2nFromString (m : F2P) (cs : List Char) : Res (Parsed F2Mod) := fromTokens F2Mod.cops (f2nOne m) (tokens ':' cs)

/-- The separator, `/repo/spffl/polynomials/f2n_poly_t.cpp:790-797`: in `m > 9` the 9 becomes `f2_poly_t(9)`, which is
1. -/
def f2nSep (m : F2P) : Res (List Char) := do
  let b ← F2P.gt m (F2P.ofInt 9)
  ok (if b then [':'] else [])

/-- `operator<<`, `/repo/spffl/polynomials/f2n_poly_t.cpp:788-802`. -/
def f2nShow (a : CPoly F2Mod) : Res (List Char) := do
  let c ← CPoly.get_coeff F2Mod.cops a 0
  let sep ← f2nSep c.modulus
  let ts ← down (fun i => do
    let c ← CPoly.get_coeff F2Mod.cops a i
    F2P.print c.residue) (a.degree + 1)
  ok (List.intercalate sep ts)

/-- `promote_and_add`, `/repo/spffl/polynomials/f2n_poly_t.cpp:932-951` and `/repo/spffl/polynomials/fpn_poly_t.cpp:845-864`:
every coefficient moves up one place. -/
def promoteAdd {α : Type} (O : CoefOps α) (p : CPoly α) (c : α) : Res (CPoly α) := do
  let cs ← forUp 0 (p.degree + 1) (CPoly.new O (p.degree + 2)) fun i cs => store cs (i + 1) (rd p.coeffs i)
  let c1 ← rd cs 1
  let z ← O.sub c1 c1
  let cs ← wr cs 0 z
  let cs ← wr cs 0 c
  ok ⟨p.degree + 1, cs⟩

/-- The loop over the coefficients after the first, `/repo/spffl/polynomials/f2n_poly_t.cpp:869-878` and the like; `one`
reads a coefficient, and `guard` tells whether the end of the text is tested for before `peek`.  Reading stops where a
coefficient is refused, without `recompute_degree`. -/
def colonLoop {α : Type} (O : CoefOps α) (one : List Char → Res (Option α × IStream)) (guard : Bool) :
    Nat → CPoly α → IStream → Res (CPoly α × IStream)
  | 0, _, _ => timeout
  | n + 1, p, s =>
    if guard && s.eof then do
      let p ← CPoly.recompute_degree O p
      ok (p, s)
    else if s.peek.1 = some ':' then
      one s.peek.2.cs.tail >>= fun r =>
        match r.1 with
        | none => ok (p, r.2)
        | some c => do
          let p ← promoteAdd O p c
          colonLoop O one guard n p r.2
    else do
      let p ← CPoly.recompute_degree O p
      ok (p, s.peek.2)

/-- A coefficient from the unread characters, `/repo/spffl/polynomials/f2n_poly_t.cpp:862-868`. -/
def f2nGet (m : F2P) (cs : List Char) : Res (Option F2Mod × IStream) := do
  let r ← F2P.read cs
  if r.2.1 then ok (none, ⟨r.2.2, r.2.2.isEmpty, true⟩)
  else do
    let a ← F2Mod.mk' r.1 m
    ok (some a, ⟨r.2.2, r.2.2.isEmpty, false⟩)

/-- `operator>>` into an object holding `a`; with `guard` for string streams,
`/repo/spffl/polynomials/f2n_poly_t.cpp:856-880`, without it for general streams,
`/repo/spffl/polynomials/f2n_poly_t.cpp:805-850`.  The branch for `m <= 10` there is not reached: 10 becomes the zero
polynomial, and for `m = 0` the constructor has thrown before. -/
def f2nExtract (guard : Bool) (a : CPoly F2Mod) (cs : List Char) : Res (CPoly F2Mod × IStream) := do
  let c0 ← rd a.coeffs 0
  let z ← F2Mod.mk' (F2P.ofInt 0) c0.modulus
  f2nGet c0.modulus cs >>= fun r =>
    match r.1 with
    | none => ok (⟨0, [z]⟩, r.2)
    | some c => colonLoop F2Mod.cops (f2nGet c0.modulus) guard (cs.length + 1) ⟨0, [c]⟩ r.2

/-! ### fpn_poly_t -/

/-- One coefficient, `/repo/spffl/polynomials/fpn_poly_t.cpp:822-836`: `r` starts as a copy of the modulus.  If `r` is left
pointing to deleted memory its destructor deletes it again. -/
def fpnOne (m : CPoly IntMod) (t : List Char) : Res (Option (CMod IntMod)) := do
  let r ← fpExtract m t
  match r.1 with
  | .dangling => ub
  | .refused _ => ok none
  | .val p =>
    if r.2.fail then ok none
    else do
      let a ← CMod.mk' IntMod.cops p m
      ok (some a)

/-- `fpn_poly_t::from_string`, `/repo/spffl/polynomials/fpn_poly_t.cpp:797-842`. -/
def fpnFromString (m : CPoly IntMod) (cs : List Char) : Res (Parsed (CMod IntMod)) :=
  fromTokens FpMod.cops (fpnOne m) (tokens ':' cs)

/-- `operator<<`, `/repo/spffl/polynomials/fpn_poly_t.cpp:750-762`. -/
def fpnShow (a : CPoly (CMod IntMod)) : Res (List Char) := do
  let ts ← down (fun i => do
    let c ← CPoly.get_coeff FpMod.cops a i
    fpShow c.residue) (a.degree + 1)
  ok (List.intercalate [':'] ts)

/-- A coefficient from the unread characters, `/repo/spffl/polynomials/fpn_poly_t.cpp:773-780`.  The object read into
always has the characteristic of the modulus. -/
def fpnGet (m : CPoly IntMod) (cs : List Char) : Res (Option (CMod IntMod) × IStream) := do
  let r ← fpExtract m cs
  match r.1 with
  | .dangling => ub
  | .refused _ => ok (none, r.2)
  | .val p =>
    if r.2.fail then ok (none, r.2)
    else do
      let a ← CMod.mk' IntMod.cops p m
      ok (some a, r.2)

/-- `operator>>`, `/repo/spffl/polynomials/fpn_poly_t.cpp:767-794`, into an object holding `a`. -/
def fpnExtract (a : CPoly (CMod IntMod)) (cs : List Char) : Res (CPoly (CMod IntMod) × IStream) := do
  let c0 ← rd a.coeffs 0
  let z ← FpMod.cops.psub c0 0
  fpnGet c0.modulus cs >>= fun r =>
    match r.1 with
    | none => ok (⟨0, [z]⟩, r.2)
    | some c => colonLoop FpMod.cops (fpnGet c0.modulus) true (cs.length + 1) ⟨0, [c]⟩ r.2

/-! ### q_poly_t -/

/-- One digit, `/repo/spffl/polynomials/q_poly_t.cpp:733-742`. -/
def qDigit (c : Char) : Res (Option IntRat) :=
  if isDig c then do
    let a ← IntRat.ofInt (digVal c)
    ok (some a)
  else ok none

/-- One coefficient, `/repo/spffl/polynomials/q_poly_t.cpp:758-770`: an `int` is read. -/
def qOne (t : List Char) : Res (Option IntRat) :=
  let r := extractInt 0 (.ofChars t)
  if r.2.fail then ok none
  else do
    let a ← IntRat.ofInt r.1
    ok (some a)

/-- `q_poly_t::from_string`, `/repo/spffl/polynomials/q_poly_t.cpp:714-778`. -/
def qFromString (cs : List Char) : Res (Parsed IntRat) :=
  if ',' ∉ cs then do
    let r ← readCoefs qDigit cs
    finish IntRat.cops cs.length r
  else fromTokens IntRat.cops qOne (tokens ',' cs)

/-- `operator<<`, `/repo/spffl/polynomials/q_poly_t.cpp:656-667`. -/
def qShow (a : CPoly IntRat) : Res (List Char) := do
  let ts ← down (fun i => do
    let c ← CPoly.get_coeff IntRat.cops a i
    ok (showRat c)) (a.degree + 1)
  ok (List.intercalate [','] ts)

/-- `operator>>`, `/repo/spffl/polynomials/q_poly_t.cpp:670-711`, into an object holding `a`. -/
def qExtract (a : CPoly IntRat) (cs : List Char) : Res (Parsed IntRat × IStream) :=
  match cs.dropWhile blank with
  | [] => ok (.val a, ⟨[], true, true⟩)
  | cs =>
    let t := cs.takeWhile fpChar
    let rest := cs.dropWhile fpChar
    if t = [] then ok (.val a, ⟨rest, false, true⟩)
    else do
      let r ← qFromString t
      match r with
      | .val p => ok (.val p, ⟨rest, rest.isEmpty, false⟩)
      | r => ok (r, ⟨rest, rest.isEmpty, true⟩)

/-! ### Residues of polynomials -/

/-- The texts printed for a residue: zeros up to the degree of the modulus, then the coefficients;
`/repo/spffl/polynomials/fp_polymod_t.cpp:214-230` and the like. -/
def modTexts {α : Type} (O : CoefOps α) (sh : α → Res (List Char)) (a : CMod α) : Res (List (List Char)) :=
  down (fun i => if a.residue.degree < i then ok ['0'] else do
    let c ← CPoly.get_coeff O a.residue i
    sh c) (max a.residue.degree (a.modulus.degree - 1) + 1)

/-- `operator<<`, `/repo/spffl/polynomials/fp_polymod_t.cpp:213-233`. -/
def fpModShow (a : CMod IntMod) : Res (List Char) := do
  let c ← CPoly.get_coeff IntMod.cops a.residue 0
  let ts ← modTexts IntMod.cops (fun c => ok (showInt c.residue)) a
  ok (List.intercalate (if 9 < c.modulus then [','] else []) ts)

/-- `operator<<`, `/repo/spffl/polynomials/f2n_polymod_t.cpp:203-223`. -/
def f2nModShow (a : CMod F2Mod) : Res (List Char) := do
  let c ← CPoly.get_coeff F2Mod.cops a.residue 0
  let sep ← f2nSep c.modulus
  let ts ← modTexts F2Mod.cops (fun c => F2P.print c.residue) a
  ok (List.intercalate sep ts)

/-- `operator<<`, `/repo/spffl/polynomials/fpn_polymod_t.cpp:203-221`. -/
def fpnModShow (a : CMod (CMod IntMod)) : Res (List Char) := do
  let ts ← modTexts FpMod.cops (fun c => fpShow c.residue) a
  ok (List.intercalate [':'] ts)

/-- `operator<<`, `/repo/spffl/polynomials/f2_polymod_t.cpp:176-180`.  For a modulus of degree 0 the width asked for is
that of a polynomial of degree -1, no characters. -/
def f2ModShow (a : F2Mod) : Res (List Char) := do
  let d ← F2P.find_degree a.modulus
  if d = 0 then F2P.print a.residue else F2P.dprint a.residue (d - 1)

/-- The end of `from_string` for residues, `/repo/spffl/polynomials/fp_polymod_t.cpp:244-250` and the like: the
destructor of the local polynomial deletes its array. -/
def modFinish {α : Type} (O : CoefOps α) (m : CPoly α) (r : Parsed α) : Res (Option (CMod α)) :=
  match r with
  | .dangling => ub
  | .refused _ => ok none
  | .val p => do
    let a ← CMod.mk' O p m
    ok (some a)

/-- `fp_polymod_t::from_string`, `/repo/spffl/polynomials/fp_polymod_t.cpp:243-251`. -/
def fpModFromString (m : CPoly IntMod) (cs : List Char) : Res (Option (CMod IntMod)) := do
  let c ← rd m.coeffs 0
  let r ← fpFromString c.modulus cs
  modFinish IntMod.cops m r

/-- `f2n_polymod_t::from_string`, `/repo/spffl/polynomials/f2n_polymod_t.cpp:233-241`. -/
def f2nModFromString (m : CPoly F2Mod) (cs : List Char) : Res (Option (CMod F2Mod)) := do
  let c ← CPoly.get_coeff F2Mod.cops m 0
  let r ← f2nFromString c.modulus cs
  modFinish F2Mod.cops m r

/-- `fpn_polymod_t::from_string`, `/repo/spffl/polynomials/fpn_polymod_t.cpp:231-239`. -/
def fpnModFromString (m : CPoly (CMod IntMod)) (cs : List Char) : Res (Option (CMod (CMod IntMod))) := do
  let c ← CPoly.get_coeff FpMod.cops m 0
  let r ← fpnFromString c.modulus cs
  modFinish FpMod.cops m r

/-- `operator>>` into a residue, `/repo/spffl/polynomials/fp_polymod_t.cpp:236-240`: a polynomial is read into the residue
and reduced, whether or not reading succeeded. -/
def fpModExtract (a : CMod IntMod) (cs : List Char) : Res (CMod IntMod × IStream) :=
  fpExtract a.residue cs >>= fun r =>
    match r.1 with
    | .dangling => ub
    | .refused p => do let b ← CMod.mk' IntMod.cops p a.modulus; ok (b, r.2)
    | .val p => do let b ← CMod.mk' IntMod.cops p a.modulus; ok (b, r.2)

/-- The same, `/repo/spffl/polynomials/f2n_polymod_t.cpp:226-230`. -/
def f2nModExtract (a : CMod F2Mod) (cs : List Char) : Res (CMod F2Mod × IStream) := do
  let r ← f2nExtract true a.residue cs
  let b ← CMod.mk' F2Mod.cops r.1 a.modulus
  ok (b, r.2)

/-- The same, `/repo/spffl/polynomials/fpn_polymod_t.cpp:224-228`. -/
def fpnModExtract (a : CMod (CMod IntMod)) (cs : List Char) : Res (CMod (CMod IntMod) × IStream) := do
  let r ← fpnExtract a.residue cs
  let b ← CMod.mk' FpMod.cops r.1 a.modulus
  ok (b, r.2)

/-- The same, `/repo/spffl/polynomials/f2_polymod_t.cpp:183-194`. -/
def f2ModExtract (a : F2Mod) (cs : List Char) : Res (F2Mod × IStream) := do
  let r ← F2P.read cs
  let b ← F2Mod.mk' r.1 a.modulus
  ok (b, ⟨r.2.2, r.2.2.isEmpty, r.2.1⟩)

end Spffl.PText
