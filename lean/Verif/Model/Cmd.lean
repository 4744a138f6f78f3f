import Verif.Model.Scan
import Verif.Model.FacInfo

/-!
# Commands of the command-line tool: the shell, and the integer commands

`/repo/cli/spiff/z_handlers.cpp`, `/repo/cli/spiff/spiff_main.cpp:275-318`,
`/repo/spffl/containers/tfacinfo.h:470-488`.

A command is what it writes to standard output together with how it ends.  Standard error is not modelled.  `args` is
`argv[1]`, `argv[2]`, ... without the command's name; `sscanf` is modelled as the C standard describes it.
-/

namespace Spffl.Cmd
open Res Scan

/-- How a piece of a command ends: with a value, by `exit(1)`, or by a C++ exception. -/
inductive Ended (α : Type) where
  | val (a : α)
  | exit1
  | thrown
deriving DecidableEq, Repr

/-- What is printed, and the end.  `Res.throw` is not used at this level. -/
structure Cmd (α : Type) where
  run : Res (List Char × Ended α)
deriving DecidableEq

/-- One piece after the other: the texts are concatenated, also if the second piece is cut short. -/
def Cmd.bind {α β : Type} (x : Cmd α) (f : α → Cmd β) : Cmd β :=
  ⟨Res.bind x.run fun r => match r with
    | (t, .val a) => Res.bind (f a).run fun s => ok (t ++ s.1, s.2)
    | (t, .exit1) => ok (t, .exit1)
    | (t, .thrown) => ok (t, .thrown)⟩

instance : Monad Cmd where
  pure a := ⟨ok ([], .val a)⟩
  bind := Cmd.bind

/-- Writing to standard output. -/
def out (t : List Char) : Cmd Unit := ⟨ok (t, .val ())⟩

/-- `exit(1)`. -/
def exit1 {α : Type} : Cmd α := ⟨ok ([], .exit1)⟩

/-- Library code, which throws C++ exceptions and does not print or exit. -/
def lift {α : Type} : Res α → Cmd α
  | .ok a => ⟨.ok ([], .val a)⟩
  | .throw => ⟨.ok ([], .thrown)⟩
  | .ub => ⟨.ub⟩
  | .timeout => ⟨.timeout⟩

/-- `sscanf(cs, "%d", &n)`: the number and what is left, `none` if there is none.  A number that is no `int` is
undefined behaviour. -/
def scanD (cs : List Char) : Res (Option (Int × List Char)) :=
  let sg := takeSign (cs.dropWhile isSpace)
  let d := takeDigits sg.2 0
  if d.2.length < sg.2.length then
    let v : Int := if sg.1 then -(d.1 : Int) else d.1
    if v < INT_MIN ∨ INT_MAX < v then ub else ok (some (v, d.2))
  else ok none

/-- `if (sscanf(arg, "%d", &a) != 1) pusage(argv[0]);`. -/
def intArg (cs : List Char) : Cmd Int := do
  match ← lift (scanD cs) with
  | some r => pure r.1
  | none => exit1

/-- `if (sscanf(arg, "%d-%d", &lo, &hi) == 2) ; else if (sscanf(arg, "%d", &lo) == 1) hi = lo; else pusage(argv[0]);`. -/
def rangeArg (cs : List Char) : Cmd (Int × Int) := do
  match ← lift (scanD cs) with
  | none => exit1
  | some (lo, '-' :: t) =>
    match ← lift (scanD t) with
    | some r => pure (lo, r.1)
    | none => pure (lo, lo)
  | some (lo, _) => pure (lo, lo)

/-- `for (int n = lo; n <= hi; n++)`. -/
def forRange (body : Int → Cmd Unit) : Nat → Int → Int → Cmd Unit
  | 0, n, hi => if n ≤ hi then lift .timeout else pure ()
  | k + 1, n, hi =>
    if n ≤ hi then do
      body n
      let n ← lift (iadd n 1)
      forRange body k n hi
    else pure ()

/-- `std::cout << n << std::endl`. -/
def outLine (t : List Char) : Cmd Unit := out (t ++ ['\n'])

/-- `if (several) std::cout << a << sep;`. -/
def label (several : Bool) (a sep : List Char) : Cmd Unit := if several then out (a ++ sep) else pure ()

/-! ### z_gcd, z_lcm, z_totient, z_test_prime -/

/-- `/repo/cli/spiff/z_handlers.cpp:59-64` and `84-89`: the remaining arguments combined one after the other. -/
def foldArgs (op : Int → Int → Res Int) : Int → List (List Char) → Cmd Int
  | g, [] => pure g
  | g, cs :: r => do
    let a ← intArg cs
    let g ← lift (op g a)
    foldArgs op g r

/-- `/repo/cli/spiff/z_handlers.cpp:30-49`: with `-e`, the two arguments. -/
def z_gcd_ext (args : List (List Char)) : Cmd Unit :=
  match args with
  | [x, y] => do
    let a ← intArg x
    let b ← intArg y
    let (g, r, s) ← lift (int_ext_gcd a b)
    outLine (showInt g ++ " = ".toList ++ showInt r ++ " * ".toList ++ showInt a ++ " + ".toList ++ showInt s ++
      " * ".toList ++ showInt b)
    let ar ← lift (imul a r)
    let bs ← lift (imul b s)
    let check ← lift (iadd ar bs)
    if g ≠ check then exit1 else pure ()
  | _ => exit1

/-- `/repo/cli/spiff/z_handlers.cpp:51-66` and `75-92`. -/
def foldCmd (op : Int → Int → Res Int) (args : List (List Char)) : Cmd Unit :=
  match args with
  | [] => exit1
  | x :: r => do
    let a ← intArg x
    let g ← foldArgs op a r
    outLine (showInt g)

/-- `/repo/cli/spiff/z_handlers.cpp:28-68`. -/
def z_gcd (args : List (List Char)) : Cmd Unit :=
  match args with
  | ['-', 'e'] :: r => z_gcd_ext r
  | r => foldCmd int_gcd r

/-- `/repo/cli/spiff/z_handlers.cpp:75-92`. -/
def z_lcm (args : List (List Char)) : Cmd Unit := foldCmd int_lcm args

/-- `/repo/cli/spiff/z_handlers.cpp:105-112`. -/
def z_totient1 (several : Bool) (cs : List Char) : Cmd Unit := do
  let a ← intArg cs
  let phi ← lift (int_totient a)
  label several (showInt a) ": ".toList
  outLine (showInt phi)

/-- `/repo/cli/spiff/z_handlers.cpp:99-115`. -/
def z_totient (args : List (List Char)) : Cmd Unit :=
  if args.length < 1 then exit1 else args.forM (z_totient1 (1 < args.length))

/-- `/repo/cli/spiff/z_handlers.cpp:125-135`. -/
def z_test_prime1 (several : Bool) (cs : List Char) : Cmd Unit := do
  let a ← intArg cs
  label several (showInt a) ": ".toList
  let b ← lift (is_prime a)
  if b then out "PRIME\n".toList else out "not prime\n".toList

/-- `/repo/cli/spiff/z_handlers.cpp:122-138`. -/
def z_test_prime (args : List (List Char)) : Cmd Unit := args.forM (z_test_prime1 (1 < args.length))

/-! ### nth_prime, z_list -/

/-- `/repo/cli/spiff/z_handlers.cpp:159`. -/
def nth_prime_line (n : Int) : Cmd Unit := do
  let p ← lift (nth_prime n)
  outLine (showInt p)

/-- `/repo/cli/spiff/z_handlers.cpp:150-160`. -/
def nth_prime1 (cs : List Char) : Cmd Unit := do
  let r ← rangeArg cs
  forRange nth_prime_line (r.2 - r.1 + 1).toNat r.1 r.2

/-- `/repo/cli/spiff/z_handlers.cpp:145-163`. -/
def nth_prime_cmd (args : List (List Char)) : Cmd Unit :=
  if args.length < 1 then exit1 else args.forM nth_prime1

/-- `/repo/cli/spiff/z_handlers.cpp:194-198`; the first argument is `reps` where it is positive. -/
def listLoop : Nat → Int → Int → Cmd Unit
  | 0, _, _ => pure ()
  | k + 1, walker, stride => do
    outLine (showInt walker)
    let walker ← lift (iadd walker stride)
    listLoop k walker stride

/-- An argument that may be missing, `/repo/cli/spiff/z_handlers.cpp:178-192`. -/
def optArg (d : Int) : Option (List Char) → Cmd Int
  | none => pure d
  | some cs => intArg cs

/-- `/repo/cli/spiff/z_handlers.cpp:170-201`. -/
def z_list (args : List (List Char)) : Cmd Unit :=
  if args.length < 1 ∨ 3 < args.length then exit1
  else do
    let walker ← optArg 1 args[0]?
    let reps ← optArg 1 args[1]?
    let stride ← optArg 1 args[2]?
    listLoop reps.toNat walker stride

/-! ### z_factor, z_divisors -/

/-- `/repo/spffl/containers/tfacinfo.h:480-486`: one factor, with its exponent unless that is 1. -/
def showPower {α : Type} (sh : α → List Char) (p : α × Int) : List Char :=
  sh p.1 ++ if p.2 ≠ 1 then '^' :: showInt p.2 else []

/-- `operator<<`, `/repo/spffl/containers/tfacinfo.h:471-488`. -/
def showFac {α : Type} (sh : α → List Char) (f : FacInfo α) : List Char :=
  match f.unit, f.facs with
  | some u, l => sh u ++ l.flatMap fun p => ' ' :: showPower sh p
  | none, [] => []
  | none, p :: l => showPower sh p ++ l.flatMap fun p => ' ' :: showPower sh p

/-- `/repo/cli/spiff/z_handlers.cpp:211-227`. -/
def z_factor1 (several : Bool) (cs : List Char) : Cmd Unit := do
  let a ← intArg cs
  label several (showInt a) " = ".toList
  let finfo ← lift (int_factor a)
  outLine (showFac showInt finfo)
  let check ← lift (FacInfo.unfactor intOps finfo 1)
  if check ≠ a then exit1 else pure ()

/-- `/repo/cli/spiff/z_handlers.cpp:208-230`. -/
def z_factor (args : List (List Char)) : Cmd Unit := args.forM (z_factor1 (1 < args.length))

/-- Elements with a space between them, `/repo/cli/spiff/z_handlers.cpp:265-272`. -/
def spaced : List (List Char) → List Char
  | [] => []
  | x :: l => x ++ l.flatMap fun y => ' ' :: y

/-- `/repo/cli/spiff/z_handlers.cpp:249-272`. -/
def z_divisors1 (maximal several : Bool) (cs : List Char) : Cmd Unit := do
  let a ← intArg cs
  label several (showInt a) ": ".toList
  let finfo ← lift (int_factor a)
  if maximal then
    match ← lift (FacInfo.get_maximal_proper_divisors intOps finfo 1) with
    | none => out "(none)\n".toList
    | some l => outLine (spaced (l.map showInt))
  else do
    let l ← lift (FacInfo.get_all_divisors intOps finfo 1)
    outLine (spaced (l.map showInt))

/-- `/repo/cli/spiff/z_handlers.cpp:245-274`, once `-mp` is dealt with. -/
def z_divisors_from (maximal : Bool) (args : List (List Char)) : Cmd Unit :=
  if args.length < 1 then exit1 else args.forM (z_divisors1 maximal (1 < args.length))

/-- `/repo/cli/spiff/z_handlers.cpp:237-275`. -/
def z_divisors (args : List (List Char)) : Cmd Unit :=
  match args with
  | ['-', 'm', 'p'] :: r => z_divisors_from true r
  | r => z_divisors_from false r

/-! ### The program -/

/-- `lookup_t`, `/repo/cli/spiff/spiff_main.cpp:32-36`. -/
abbrev Table := List (List Char × (List (List Char) → Cmd Unit))

/-- `z_lookups`, `/repo/cli/spiff/spiff_main.cpp:39-50`, without the two calculators. -/
def zTable : Table :=
  [("z_gcd".toList, z_gcd), ("z_lcm".toList, z_lcm), ("z_totient".toList, z_totient),
    ("z_test_prime".toList, z_test_prime), ("spffl::intmath::nth_prime".toList, nth_prime_cmd),
    ("z_list".toList, z_list), ("z_factor".toList, z_factor), ("z_divisors".toList, z_divisors)]

/-- The search for the command, `/repo/cli/spiff/spiff_main.cpp:298-308`; `none` is `return 1`. -/
def dispatch : Table → List Char → List (List Char) → Option (Cmd Unit)
  | [], _, _ => none
  | (name, f) :: l, c, args => if c = name then some (f args) else dispatch l c args

/-- `main`, `/repo/cli/spiff/spiff_main.cpp:275-318`, for arguments without braces other than `-l`: what is printed
and the exit status.  The value of `try_main` is dropped and exceptions are caught, so only `exit(1)` gives a status
other than 0. -/
def spiff (T : Table) : List (List Char) → Res (List Char × Int)
  | [] => ok ([], 1)
  | c :: args =>
    match dispatch T c args with
    | none => ok ([], 0)
    | some x => Res.bind x.run fun r => ok (r.1, match r.2 with
      | .exit1 => 1
      | _ => 0)

end Spffl.Cmd
