import Verif.Model.CmdField
import Verif.Model.Convert
import Verif.Model.MinPoly

/-!
# Commands of the command-line tool: residues

`/repo/cli/spiff/fp_handlers.cpp`, `/repo/cli/spiff/f2_polymod_handlers.cpp`.

The two files are copies of one another as far as listings, tables, orders, generators and logarithms go; these are written once, for any
type of residues with the functions in `RTool`.  A command that returns 1 without calling `exit` has the value 1: `main` does not use it
(Model/Cmd.lean).  Not modelled: the commands that draw random numbers, the calculators (Model/Expr*.lean), standard error.
-/

namespace Spffl.Cmd
open Res Scan Lists

/-- What a type `α` of residues with moduli in `μ` offers to the commands. -/
structure RTool (μ α : Type) where
  O : CoefOps α
  /-- `from_string` with the modulus -/
  read : μ → List Char → Res (Option α)
  /-- `operator<<` of residues and of moduli -/
  sh : α → Res (List Char)
  shM : μ → Res (List Char)
  list : μ → LType → Res (List α)
  glist : α → LType → Res (List α)
  order : α → Res Int
  gen : μ → Res (Option α)
  log : α → α → Res Int

section
variable {μ α : Type} (par : List Char → Cmd μ) (T : RTool μ α)

/-- `if (several) std::cout << a << ": ";`. -/
def rLabel (several : Bool) (sh : α → Res (List Char)) (a : α) : Cmd Unit :=
  if several then do
    put sh a
    out ": ".toList
  else pure ()

/-! ### Listings -/

/-- `/repo/cli/spiff/fp_handlers.cpp:27-35`, `f2_polymod_handlers.cpp:25-33`. -/
def listFlag (cs : List Char) : Cmd LType :=
  if cs = "-a".toList then pure .all
  else if cs = "-u".toList then pure .units
  else if cs = "-nu".toList then pure .non_units
  else exit1

/-- `/repo/cli/spiff/fp_handlers.cpp:43-49`, `f2_polymod_handlers.cpp:41-47`. -/
def glistFlag (cs : List Char) : Cmd LType :=
  if cs = "-m".toList then pure .multiples
  else if cs = "-rp".toList then pure .rel_prime
  else exit1

/-- `/repo/cli/spiff/fp_handlers.cpp:21-62`, `f2_polymod_handlers.cpp:21-60`. -/
def rList : List (List Char) → Cmd Unit
  | [f, m] => do
    let type ← listFlag f
    let m ← par m
    let elts ← lift (T.list m type)
    crout T.sh elts
  | [f, g, m] => do
    let type ← glistFlag f
    let m ← par m
    let g ← readArg (T.read m) g
    let elts ← lift (T.glist g type)
    crout T.sh elts
  | _ => exit1

/-! ### Tables -/

/-- `/repo/cli/spiff/tbl_types.h`; the base is kept with the last two. -/
inductive TblType (α : Type) where
  | plus | minus | mul | unit_mul | unit_div
  | log (g : α)
  | alog (g : α)
deriving DecidableEq

/-- `find_generator` with `exit(1)` if there is none. -/
def genArg (m : μ) : Cmd α := do
  match ← lift (T.gen m) with
  | some g => pure g
  | none => exit1

/-- `/repo/cli/spiff/fp_handlers.cpp:97-138`, `f2_polymod_handlers.cpp:98-139`. -/
def tblArg (m : μ) (cs : List Char) : Cmd (TblType α) :=
  if cs = "+".toList then pure .plus
  else if cs = "-".toList then pure .minus
  else if cs = "*".toList then pure .mul
  else if cs = ".".toList then pure .mul
  else if cs = "u*".toList then pure .unit_mul
  else if cs = "u.".toList then pure .unit_mul
  else if cs = "/".toList then pure .unit_div
  else if cs.take 4 = "log:".toList then do
    let g ← readArg (T.read m) (cs.drop 4)
    pure (.log g)
  else if cs = "log".toList then do
    let g ← genArg T m
    pure (.log g)
  else if cs.take 5 = "alog:".toList then do
    let g ← readArg (T.read m) (cs.drop 5)
    pure (.alog g)
  else if cs = "alog".toList then do
    let g ← genArg T m
    pure (.alog g)
  else exit1

/-- `/repo/cli/spiff/fp_handlers.cpp:175-196`, `f2_polymod_handlers.cpp:176-197`: one row of the table of an operation. -/
def tblRow (op : α → α → Res α) (a : α) : Bool → List α → Cmd Unit
  | _, [] => out ['\n']
  | first, b :: l => do
    let c ← lift (op a b)
    (if first then pure () else out [' '])
    put T.sh c
    tblRow op a false l

/-- `/repo/cli/spiff/fp_handlers.cpp:173-198`, `f2_polymod_handlers.cpp:174-199`. -/
def tblRows (op : α → α → Res α) (elts : List α) : List α → Cmd Unit
  | [] => pure ()
  | a :: l => do
    tblRow T op a true elts
    tblRows op elts l

/-- `/repo/cli/spiff/fp_handlers.cpp:152-155`, `f2_polymod_handlers.cpp:153-156`. -/
def logRows (g : α) : List α → Cmd Unit
  | [] => pure ()
  | a :: l => do
    let e ← lift (T.log g a)
    put T.sh a
    outLine (' ' :: showInt e)
    logRows g l

/-- `/repo/cli/spiff/fp_handlers.cpp:162-165`, `f2_polymod_handlers.cpp:163-166`, `n` rows from `i` on. -/
def alogRows (g : α) : Nat → Nat → α → Cmd Unit
  | 0, _, _ => pure ()
  | n + 1, i, gp => do
    out (showNat i ++ [' '])
    putLine T.sh gp
    let gp ← lift (T.O.mul gp g)
    alogRows g n (i + 1) gp

/-- `/repo/cli/spiff/fp_handlers.cpp:140-198`, `f2_polymod_handlers.cpp:141-199`. -/
def rTable (m : μ) : TblType α → Cmd Unit
  | .plus => do
    let elts ← lift (T.list m .all)
    tblRows T T.O.add elts elts
  | .minus => do
    let elts ← lift (T.list m .all)
    tblRows T T.O.sub elts elts
  | .mul => do
    let elts ← lift (T.list m .all)
    tblRows T T.O.mul elts elts
  | .unit_mul => do
    let elts ← lift (T.list m .units)
    tblRows T T.O.mul elts elts
  | .unit_div => do
    let elts ← lift (T.list m .units)
    tblRows T T.O.div elts elts
  | .log g => do
    let elts ← lift (T.list m .units)
    out "element power\n------- -----\n".toList
    logRows T g elts
  | .alog g => do
    let elts ← lift (T.list m .units)
    out "power element\n----- -------\n".toList
    let gp ← lift (T.O.div g g)
    alogRows T g elts.length 0 gp

/-- `/repo/cli/spiff/fp_handlers.cpp:86-201`, `f2_polymod_handlers.cpp:87-202`. -/
def rTbl : List (List Char) → Cmd Unit
  | [m, cs] => do
    let m ← par m
    let type ← tblArg T m cs
    rTable T m type
  | _ => exit1

/-! ### Orders, generators, logarithms -/

/-- `/repo/cli/spiff/fp_handlers.cpp:217-225`, `f2_polymod_handlers.cpp:217-225`. -/
def ord1 (m : μ) (several : Bool) (cs : List Char) : Cmd Unit := do
  let a ← readArg (T.read m) cs
  rLabel several T.sh a
  let n ← lift (T.order a)
  outLine (showInt n)

/-- `/repo/cli/spiff/fp_handlers.cpp:208-227`, `f2_polymod_handlers.cpp:208-227`. -/
def rOrd : List (List Char) → Cmd Unit
  | m :: x :: r => do
    let m ← par m
    (x :: r).forM (ord1 T m (1 < (x :: r).length))
  | _ => exit1

/-- `/repo/cli/spiff/fp_handlers.cpp:327-340`, `f2_polymod_handlers.cpp:241-254`; the value is that of `rv`. -/
def gens (several : Bool) : Int → List (List Char) → Cmd Int
  | rv, [] => pure rv
  | rv, cs :: r => do
    let m ← par cs
    rLabel several T.shM m
    match ← lift (T.gen m) with
    | some g => do
      putLine T.sh g
      gens several rv r
    | none => do
      out "Generator not found.\n".toList
      gens several 1 r

/-- `/repo/cli/spiff/fp_handlers.cpp:320-342`, `f2_polymod_handlers.cpp:234-256`. -/
def rFindGen : List (List Char) → Cmd Int
  | [] => exit1
  | args => gens par T (1 < args.length) 0 args

/-- `/repo/cli/spiff/fp_handlers.cpp:361-369`, `f2_polymod_handlers.cpp:275-283`. -/
def log1 (m : μ) (g : α) (several : Bool) (cs : List Char) : Cmd Unit := do
  let a ← readArg (T.read m) cs
  rLabel several T.sh a
  let n ← lift (T.log g a)
  outLine (showInt n)

/-- `/repo/cli/spiff/fp_handlers.cpp:349-371`, `f2_polymod_handlers.cpp:263-285`. -/
def rLog : List (List Char) → Cmd Unit
  | m :: g :: x :: r => do
    let m ← par m
    let g ← readArg (T.read m) g
    (x :: r).forM (log1 T m g (1 < (x :: r).length))
  | _ => exit1

/-- `/repo/cli/spiff/fp_handlers.cpp:247-253`. -/
def maxOrd : Int → List α → Cmd Int
  | max, [] => pure max
  | max, a :: l => do
    let cur ← lift (T.order a)
    maxOrd (if max < cur then cur else max) l

end

/-! ### `/repo/cli/spiff/fp_handlers.cpp` -/

/-- `intmod_t`; `qs` is `qsort` on the tables of the logarithm, see Model/Units.lean. -/
def fpRTool (qs : List (IntMod × Nat) → List (IntMod × Nat)) : RTool Int IntMod where
  O := IntMod.cops
  read p cs := modFromString p cs
  sh := showMod
  shM p := ok (showInt p)
  list := intmod_list
  glist := intmod_glist
  order := FpU.order
  gen := FpU.find_generator
  log := FpU.log qs

section
variable (qs : List (IntMod × Nat) → List (IntMod × Nat))

def fp_list := rList intArg (fpRTool qs)
def fp_tbl := rTbl intArg (fpRTool qs)
def fp_ord := rOrd intArg (fpRTool qs)
def fp_find_gen := rFindGen intArg (fpRTool qs)
def fp_log := rLog intArg (fpRTool qs)

/-- `/repo/cli/spiff/fp_handlers.cpp:234-256`. -/
def fp_max_ord : List (List Char) → Cmd Unit
  | [p] => do
    let p ← intArg p
    let elts ← lift (intmod_list p .units)
    let max ← maxOrd (fpRTool qs) 0 elts
    outLine (showInt max)
  | _ => exit1

end

/-- `/repo/cli/spiff/fp_handlers.cpp:292-312`; `counter` is at most `p + 1` in `k` rounds. -/
def orbitLoop (p a a0 : Int) : Nat → Int → Int → Cmd Unit
  | 0, _, _ => ⟨.timeout⟩
  | k + 1, apower, counter => do
    let t ← lift (imul apower a0)
    let t ← lift (imod t p)
    outLine (showInt t)
    if apower = 1 then pure ()
    else do
      let counter ← lift (iadd counter 1)
      if p < counter then exit1
      else do
        let s ← lift (imul apower a)
        let s ← lift (imod s p)
        orbitLoop p a a0 k s counter

/-- `/repo/cli/spiff/fp_handlers.cpp:278-312`.  `gcd(a, p)` in line 278 is not `spffl::intmath::gcd(int, int)`: that name is not visible at
global scope, and `int` has no associated namespace.  Of the functions that are visible, `gcd` of `f2_poly_t` in f2_poly_t.h:117-118 (included by
list_elements.h) is the only viable one, by the conversion f2_poly_t.cpp:33-36 of both arguments. -/
def orbit (p a a0 : Int) : Cmd Unit := do
  let g ← lift (F2P.gcd (F2P.ofInt a) (F2P.ofInt p))
  let one ← lift (F2P.eqInt g 1)
  if !one then exit1
  else do
    let a ← lift (imod a p)
    let a0 ← lift (imod a0 p)
    orbitLoop p a a0 (p.toNat + 2) a 0

/-- `/repo/cli/spiff/fp_handlers.cpp:263-315`. -/
def fp_orbit : List (List Char) → Cmd Unit
  | [p, a] => do
    let p ← intArg p
    let a ← intArg a
    orbit p a 1
  | [p, a, a0] => do
    let p ← intArg p
    let a ← intArg a
    let a0 ← intArg a0
    orbit p a a0
  | _ => exit1

/-- `fp_lookups`, `/repo/cli/spiff/spiff_main.cpp:154-169`: the commands above. -/
def fpTable (qs : List (IntMod × Nat) → List (IntMod × Nat)) : Table :=
  [("fp_list".toList, fp_list qs), ("fp_tbl".toList, fp_tbl qs), ("fp_ord".toList, fp_ord qs), ("fp_max_ord".toList, fp_max_ord qs),
    ("fp_orbit".toList, fp_orbit), ("fp_find_gen".toList, fun args => do let _ ← fp_find_gen qs args; pure ()), ("fp_log".toList, fp_log qs)]

/-! ### `/repo/cli/spiff/f2_polymod_handlers.cpp` -/

/-- `f2_polymod_t`; `tm` is the mask of `bit_vector_t`, see `Model/BitVector.lean`. -/
def f2RTool (tm : TrimMask) (qs : List (F2Mod × Nat) → List (F2Mod × Nat)) : RTool F2P F2Mod where
  O := F2Mod.cops
  read m cs := PText.f2nOne m cs
  sh := PText.f2ModShow
  shM := F2P.print
  list := f2_polymod_list tm
  glist := f2_polymod_glist
  order := F2U.order tm
  gen := F2U.find_generator tm
  log := F2U.log qs

section
variable (tm : TrimMask) (qs : List (F2Mod × Nat) → List (F2Mod × Nat))

def f2_pm_list := rList f2Arg (f2RTool tm qs)
def f2_pm_tbl := rTbl f2Arg (f2RTool tm qs)
def f2_pm_ord := rOrd f2Arg (f2RTool tm qs)
def f2_pm_find_gen := rFindGen f2Arg (f2RTool tm qs)
def f2_pm_log := rLog f2Arg (f2RTool tm qs)

end

/-- `/repo/cli/spiff/f2_polymod_handlers.cpp:303-314`, `333-344`: the polynomial is computed before the label is printed. -/
def pol1 (pol : F2Mod → Res F2P) (m : F2P) (several : Bool) (cs : List Char) : Cmd Unit := do
  let a ← readArg (PText.f2nOne m) cs
  let p ← lift (pol a)
  rLabel several PText.f2ModShow a
  putLine F2P.print p

def rPol (pol : F2Mod → Res F2P) : List (List Char) → Cmd Unit
  | m :: x :: r => do
    let m ← f2Arg m
    (x :: r).forM (pol1 pol m (1 < (x :: r).length))
  | _ => exit1

/-- `/repo/cli/spiff/f2_polymod_handlers.cpp:292-315` and `322-345`; `k` is the number of rounds allowed to the loop that finds the number of
conjugates (Model/MinPoly.lean). -/
def f2_pm_ch_pol (tm : TrimMask) (k : Nat) := rPol (LinAlg.f2_characteristic_polynomial tm k)
def f2_pm_min_pol (tm : TrimMask) (k : Nat) := rPol (LinAlg.f2_minimal_polynomial tm k)

/-- `/repo/cli/spiff/f2_polymod_handlers.cpp:373-382`. -/
def conv1 (qs : List (F2Mod × Nat) → List (F2Mod × Nat)) (m1 : F2P) (g1 g2 : F2Mod) (several : Bool) (cs : List Char) : Cmd Unit := do
  let a1 ← readArg (PText.f2nOne m1) cs
  let a2 ← lift (Convert.scalar qs g1 g2 a1)
  rLabel several PText.f2ModShow a1
  putLine PText.f2ModShow a2

/-- `/repo/cli/spiff/f2_polymod_handlers.cpp:352-385`; `vs` is the `qsort` of tvector.h. -/
def f2_pm_convert (tm : TrimMask) (qs : List (F2Mod × Nat) → List (F2Mod × Nat)) (vs : List F2Mod → List F2Mod) : List (List Char) → Cmd Unit
  | m1 :: m2 :: x :: r => do
    let m1 ← f2Arg m1
    let m2 ← f2Arg m2
    match ← lift (F2U.find_generator tm m1) with
    | none => exit1
    | some g1 => do
      match ← lift (Convert.prep vs g1 m2) with
      | none => exit1
      | some g2 => (x :: r).forM (conv1 qs m1 g1 g2 (1 < (x :: r).length))
  | _ => exit1

end Spffl.Cmd
