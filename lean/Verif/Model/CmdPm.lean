import Verif.Model.CmdRes

/-!
# Commands of the command-line tool: residues modulo polynomials over Fp and F2^n

`/repo/cli/spiff/fp_polymod_handlers.cpp`, `/repo/cli/spiff/f2n_polymod_handlers.cpp`, and what `f2n_polymod_log`
(`/repo/spffl/units/f2n_polymod_units.cpp:118-201`) prints.

Both files repeat the code of f2_polymod_handlers.cpp, with one more argument in front; the definitions of Model/CmdRes.lean are used for it.
Not modelled: the commands that draw random numbers and fp_pm_mat_ord; the calculators are in Model/Expr*.lean.
-/

namespace Spffl.Cmd
open Res Scan Lists

/-- The operators the tables use.  The members that no command calls are left out. -/
def pmOps {α : Type} (O : CoefOps α) (dflt : CMod α) : CoefOps (CMod α) where
  add := CMod.add O
  sub := CMod.sub O
  mul := CMod.mul O
  div := CMod.div O
  neg := CMod.neg O
  eq := CMod.eq O
  lt := CMod.lt O
  gt := CMod.gt O
  psub := CMod.psub O
  recip := CMod.recip O
  isInt _ _ := throw
  exp := CMod.exp O
  mulNat _ _ := throw
  dflt := dflt

/-! ### fp_polymod_handlers.cpp -/

/-- `/repo/cli/spiff/fp_polymod_handlers.cpp:34-39`, `82-87`: the first two arguments. -/
def fpPmArg (p m : List Char) : Cmd (CPoly IntMod) := do
  let p ← intArg p
  readArg (fpTool p).read m

/-- `fp_polymod_t`; there is no function for generators and logarithms.  `d` is the object new vectors are filled with. -/
def fpPmTool (d : CMod IntMod) : RTool (CPoly IntMod) (CMod IntMod) where
  O := pmOps IntMod.cops d
  read := PText.fpModFromString
  sh := PText.fpModShow
  shM := PText.fpShow
  list := fp_polymod_list d
  glist _ _ := throw
  order _ := throw
  gen _ := throw
  log _ _ := throw

/-- `/repo/cli/spiff/fp_polymod_handlers.cpp:19-44`. -/
def fp_pm_list (d : CMod IntMod) : List (List Char) → Cmd Unit
  | [f, p, m] => rList (fpPmArg p) (fpPmTool d) [f, m]
  | _ => exit1

/-- `/repo/cli/spiff/fp_polymod_handlers.cpp:89-103`, `132-134`. -/
def opArg {α : Type} (cs : List Char) : Cmd (TblType α) :=
  if cs = "+".toList then pure .plus
  else if cs = "-".toList then pure .minus
  else if cs = "*".toList then pure .mul
  else if cs = ".".toList then pure .mul
  else if cs = "u*".toList then pure .unit_mul
  else if cs = "u.".toList then pure .unit_mul
  else if cs = "/".toList then pure .unit_div
  else exit1

/-- `/repo/cli/spiff/fp_polymod_handlers.cpp:75-202`; the lines between `#if 0` and `#endif` are not compiled. -/
def fp_pm_tbl (d : CMod IntMod) : List (List Char) → Cmd Unit
  | [p, m, cs] => do
    let m ← fpPmArg p m
    let type ← opArg cs
    rTable (fpPmTool d) m type
  | _ => exit1

/-- `/repo/cli/spiff/fp_polymod_handlers.cpp:366-372`, in `k` rounds. -/
def fpOrdLoop (a one : CMod IntMod) : Nat → Int → CMod IntMod → Cmd Unit
  | 0, _, _ => ⟨.timeout⟩
  | k + 1, order, apower => do
    let e ← lift (CMod.eq IntMod.cops apower one)
    if e then outLine (showInt order)
    else do
      let apower ← lift (CMod.mul IntMod.cops apower a)
      let order ← lift (iadd order 1)
      fpOrdLoop a one k order apower

/-- `/repo/cli/spiff/fp_polymod_handlers.cpp:336-377`. -/
def fp_pm_ord (k : Nat) : List (List Char) → Cmd Unit
  | [p, m, a] => do
    let p ← intArg p
    let m ← readArg (fpTool p).read m
    let a ← readArg (PText.fpModFromString m) a
    match ← lift (CMod.recip IntMod.cops a) with
    | none => outLine ['0']
    | some _ => do
      let z ← lift (do CPoly.const IntMod.cops (← IntMod.mk' 0 p))
      let _ ← lift (CMod.mk' IntMod.cops z m)
      let o ← lift (do CPoly.const IntMod.cops (← IntMod.mk' 1 p))
      let one ← lift (CMod.mk' IntMod.cops o m)
      fpOrdLoop a one k 1 a
  | _ => exit1

section
variable {α β μ : Type} (par : List Char → List Char → Cmd μ) (read : μ → List Char → Res (Option α)) (sh : α → Res (List Char))
  (shP : β → Res (List Char)) (pol : α → Res β)

/-- `/repo/cli/spiff/fp_polymod_handlers.cpp:398-408` and `432-442`, `f2n_polymod_handlers.cpp:314-323` and `347-356`. -/
def pmPol1 (m : μ) (several : Bool) (cs : List Char) : Cmd Unit := do
  let a ← readArg (read m) cs
  let p ← lift (pol a)
  rLabel several sh a
  putLine shP p

def pmPol : List (List Char) → Cmd Unit
  | p :: m :: x :: r => do
    let m ← par p m
    (x :: r).forM (pmPol1 read sh shP pol m (1 < (x :: r).length))
  | _ => exit1

end

/-- `/repo/cli/spiff/fp_polymod_handlers.cpp:384-411` and `418-445`; `k` is the number of rounds allowed to the loop that finds the number of
conjugates (Model/MinPoly.lean). -/
def fp_pm_ch_pol (k : Nat) := pmPol fpPmArg PText.fpModFromString PText.fpModShow PText.fpShow (LinAlg.fp_characteristic_polynomial k)
def fp_pm_min_pol (k : Nat) := pmPol fpPmArg PText.fpModFromString PText.fpModShow PText.fpShow (LinAlg.fp_minimal_polynomial k)

/-- A call of `pusage` where the table of commands has `nullptr`. -/
def nullUsage {α : Type} : Cmd α := ⟨.ub⟩

/-- `readArg` and `intArg` in a command without usage function. -/
def readArgN {α : Type} (read : List Char → Res (Option α)) (cs : List Char) : Cmd α := do
  match ← lift (read cs) with
  | some a => pure a
  | none => nullUsage
def intArgN (cs : List Char) : Cmd Int := do
  match ← lift (scanD cs) with
  | some r => pure r.1
  | none => nullUsage

/-- `/repo/cli/spiff/fp_polymod_handlers.cpp:204-222` and `224-242`, called with `pusage = nullptr` (`spiff_main.cpp:197-198`).  `run` is the
calculator. -/
def fp_pm_calc (run : CPoly IntMod → List (List Char) → Cmd Unit) : List (List Char) → Cmd Unit
  | p :: m :: r => do
    let p ← intArgN p
    let m ← readArgN (fpTool p).read m
    run m r
  | _ => nullUsage

/-! ### f2n_polymod_handlers.cpp -/

/-- `/repo/cli/spiff/f2n_polymod_handlers.cpp:36-41`, `88-93`, ...: the first two arguments. -/
def f2nPmArg (im om : List Char) : Cmd (CPoly F2Mod) := do
  let im ← f2Arg im
  readArg (f2nTool im).read om

/-- `f2n_polymod_t`; `log` is without the lines written to `cout`, which are in `f2nLog`. -/
def f2nPmTool (d : CMod F2Mod) (qs : List (CMod F2Mod × Nat) → List (CMod F2Mod × Nat)) : RTool (CPoly F2Mod) (CMod F2Mod) where
  O := pmOps F2Mod.cops d
  read := PText.f2nModFromString
  sh := PText.f2nModShow
  shM := PText.f2nShow
  list := f2n_polymod_list d
  glist _ _ := throw
  order := F2nU.order
  gen := F2nU.find_generator
  log := F2nU.log qs

/-! #### f2n_polymod_log -/

/-- `std::cout << t << a << "\n"`. -/
def dbg {α : Type} (t : List Char) (sh : α → Res (List Char)) (a : α) : Cmd Unit := do
  out t
  putLine sh a

/-- `std::cout << name << i << eq << elt << "\n"`. -/
def dbgRow (name : List Char) (i : Nat) (eq : List Char) (a : CMod F2Mod) : Cmd Unit := dbg (name ++ showNat i ++ eq) PText.f2nModShow a

/-- `/repo/spffl/units/f2n_polymod_units.cpp:153-157` and `159-163`: entries `i`, ..., `i + n - 1` of a table whose last entry is `y`. -/
def dbgTable (name eq : List Char) (x : CMod F2Mod) : Nat → Nat → List (CMod F2Mod × Nat) → Cmd (List (CMod F2Mod × Nat))
  | 0, _, l => pure l
  | n + 1, i, l => do
    let l ← lift (Units.powStep F2nU.uops x i l)
    let p ← lift (rd l i)
    dbgRow name i eq p.1
    dbgTable name eq x n (i + 1) l

/-- `std::cout << pre << i << "] = " << x << " gk[" << j << "] = " << y << "\n"`. -/
def dbgPair (pre : List Char) (i j : Nat) (x y : CMod F2Mod) : Cmd Unit := do
  out (pre ++ showNat i ++ "] = ".toList)
  put PText.f2nModShow x
  out (" gk[".toList ++ showNat j ++ "] = ".toList)
  putLine PText.f2nModShow y

/-- `/repo/spffl/units/f2n_polymod_units.cpp:167-170`. -/
def dbgSorted : Nat → List (CMod F2Mod × Nat) → List (CMod F2Mod × Nat) → Cmd Unit
  | j, x :: xs, y :: ys => do
    dbgPair "-- agni[".toList j j x.1 y.1
    dbgSorted (j + 1) xs ys
  | _, _, _ => pure ()

/-- `/repo/spffl/units/f2n_polymod_units.cpp:172-186`; the lists are the entries from `i` and from `j` on. -/
def dbgScan : Nat → Nat → Nat → List (CMod F2Mod × Nat) → List (CMod F2Mod × Nat) → Cmd (Option (Nat × Nat))
  | 0, _, _, _, _ => ⟨.timeout⟩
  | k + 1, i, j, x :: xs, y :: ys => do
    dbgPair "agni[".toList i j x.1 y.1
    let e ← lift (CMod.eq F2Mod.cops x.1 y.1)
    if e then do
      out ("found at i=".toList ++ showNat i ++ " j=".toList ++ showNat j ++ ['\n'])
      pure (some (x.2, y.2))
    else do
      let c ← lift (CMod.lt F2Mod.cops x.1 y.1)
      if c then dbgScan k (i + 1) j xs (y :: ys) else dbgScan k i (j + 1) (x :: xs) ys
  | _ + 1, _, _, _, _ => pure none

/-- `/repo/spffl/units/f2n_polymod_units.cpp:133-200`, after `k` has been computed. -/
def dbgBsgs (qs : List (CMod F2Mod × Nat) → List (CMod F2Mod × Nat)) (g a : CMod F2Mod) (k : Nat) : Cmd Int :=
  if k = 0 then ⟨.ub⟩
  else do
    match ← lift (CMod.recip F2Mod.cops g) with
    | none => lift throw
    | some ginv => do
      dbg "gi = ".toList PText.f2nModShow ginv
      let gk ← lift (CMod.exp F2Mod.cops g k)
      dbg "gk = ".toList PText.f2nModShow gk
      let one ← lift (CMod.div F2Mod.cops g g)
      dbgRow "agni[".toList 0 "] = ".toList a
      let agni ← dbgTable "agni[".toList "] = ".toList ginv (k - 1) 1 [(a, 0)]
      dbgRow "gk[".toList 0 "]  = ".toList one
      let gkj ← dbgTable "gk[".toList "]  = ".toList gk (k - 1) 1 [(one, 0)]
      dbgSorted 0 (qs agni) (qs gkj)
      match ← dbgScan (2 * k + 1) 0 0 (qs agni) (qs gkj) with
      | none => lift throw
      | some r =>
        let rv := Units.toInt32 (r.1 + r.2 * k)
        if rv = -1 then lift throw else pure rv

/-- `/repo/spffl/units/f2n_polymod_units.cpp:118-201`. -/
def f2nLog (qs : List (CMod F2Mod × Nat) → List (CMod F2Mod × Nat)) (g a : CMod F2Mod) : Cmd Int := do
  out ['\n']
  dbg "g = ".toList PText.f2nModShow g
  dbg "a = ".toList PText.f2nModShow a
  dbg "m = ".toList PText.f2nShow g.modulus
  let n ← lift (ishl 1 g.modulus.degree)
  outLine ("n = ".toList ++ showInt n)
  let k ← lift (int_sqrt_ceil n)
  outLine ("k = ".toList ++ showInt k)
  dbgBsgs qs g a k.toNat

section
variable (d : CMod F2Mod) (qs : List (CMod F2Mod × Nat) → List (CMod F2Mod × Nat))

/-- `/repo/cli/spiff/f2n_polymod_handlers.cpp:20-45`. -/
def f2n_pm_list : List (List Char) → Cmd Unit
  | [f, im, om] => rList (f2nPmArg im) (f2nPmTool d qs) [f, om]
  | _ => exit1

/-- `/repo/cli/spiff/f2n_polymod_handlers.cpp:149-153`. -/
def f2nLogRows (g : CMod F2Mod) : List (CMod F2Mod) → Cmd Unit
  | [] => pure ()
  | a :: l => do
    let e ← f2nLog qs g a
    put PText.f2nModShow a
    outLine (' ' :: showInt e)
    f2nLogRows g l

/-- `/repo/cli/spiff/f2n_polymod_handlers.cpp:136-197`. -/
def f2nTable (om : CPoly F2Mod) : TblType (CMod F2Mod) → Cmd Unit
  | .log g => do
    let elts ← lift (f2n_polymod_list d om .units)
    out "element power\n------- -----\n".toList
    f2nLogRows qs g elts
  | type => rTable (f2nPmTool d qs) om type

/-- `/repo/cli/spiff/f2n_polymod_handlers.cpp:79-197`. -/
def f2n_pm_tbl : List (List Char) → Cmd Unit
  | [im, om, cs] => do
    let om ← f2nPmArg im om
    let type ← tblArg (f2nPmTool d qs) om cs
    f2nTable d qs om type
  | _ => exit1

/-- `/repo/cli/spiff/f2n_polymod_handlers.cpp:204-227`. -/
def f2n_pm_ord : List (List Char) → Cmd Unit
  | im :: r => rOrd (f2nPmArg im) (f2nPmTool d qs) r
  | [] => exit1

/-- `/repo/cli/spiff/f2n_polymod_handlers.cpp:234-260`. -/
def f2n_pm_find_gen : List (List Char) → Cmd Int
  | im :: om :: r => do
    let im ← f2Arg im
    rFindGen (readArg (f2nTool im).read) (f2nPmTool d qs) (om :: r)
  | _ => exit1

/-- `/repo/cli/spiff/f2n_polymod_handlers.cpp:283-291`. -/
def f2nLog1 (om : CPoly F2Mod) (g : CMod F2Mod) (several : Bool) (cs : List Char) : Cmd Unit := do
  let a ← readArg (PText.f2nModFromString om) cs
  rLabel several PText.f2nModShow a
  let n ← f2nLog qs g a
  outLine (showInt n)

/-- `/repo/cli/spiff/f2n_polymod_handlers.cpp:267-293`. -/
def f2n_pm_log : List (List Char) → Cmd Unit
  | im :: om :: g :: x :: r => do
    let om ← f2nPmArg im om
    let g ← readArg (PText.f2nModFromString om) g
    (x :: r).forM (f2nLog1 qs om g (1 < (x :: r).length))
  | _ => exit1

end

/-- `/repo/cli/spiff/f2n_polymod_handlers.cpp:300-326` and `333-359`. -/
def f2n_pm_ch_pol (k : Nat) := pmPol f2nPmArg PText.f2nModFromString PText.f2nModShow PText.f2nShow (LinAlg.f2npm_char_poly k)
def f2n_pm_min_pol (k : Nat) := pmPol f2nPmArg PText.f2nModFromString PText.f2nModShow PText.f2nShow (LinAlg.f2npm_min_poly k)

end Spffl.Cmd
