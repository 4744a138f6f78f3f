import Verif.Model.CmdCalcRat
import Verif.Model.CmdCalcRing
import Verif.Model.CmdLast
import Verif.Model.CmdRandom
import Verif.Model.Text

/-!
# The command-line program

`/repo/cli/spiff/spiff_main.cpp`, whole: the table of commands, the list printed by `-l`, the interpolation of braces
(Model/Text.lean) and `main`.  What the commands depend on is in `Env`.

A command in braces is run by `popen`, so by the shell.  `shell` is `sh -c` for command lines that consist of the name
of the program and plain words: letters, digits and characters without a meaning for the shell, or a lone brace, which
is no reserved word where it is an argument.  The shell cuts these at the spaces and runs the program; its output is
that of the program.  Every other command line (`*`, parentheses, `<`, quotes, ...), and every run of the program that
is undefined or does not end, is left to an arbitrary function.  All processes see the same `Env`; so only one of them may
read standard input or draw random numbers.
-/

namespace Spffl.Cmd
open Res

/-- What the commands depend on besides their arguments. -/
structure Env where
  /-- What is in an uninitialised variable of `operator>>` of `bit_t`. -/
  r0 : Nat
  files : String → Option (List Char)
  stdin : List Char
  tm : TrimMask
  /-- What `qsort` does in the constructors of the residue rings, and to lists of elements. -/
  sortF2 : List (F2Mod × Nat) → List (F2Mod × Nat)
  sortElts : List F2Mod → List F2Mod
  sortFp : List (IntMod × Nat) → List (IntMod × Nat)
  sortF2n : List (CMod F2Mod × Nat) → List (CMod F2Mod × Nat)
  /-- Elements of default-constructed arrays. -/
  dFp : CMod IntMod
  dF2n : CMod F2Mod
  /-- Rounds of the loops without a bound. -/
  fuel : Nat
  /-- The random words. -/
  src : Nat → BitVec 32

def Env.filesL (e : Env) (f : List Char) : Option (List Char) := e.files (String.ofList f)

/-- The value of a handler is not looked at, `/repo/cli/spiff/spiff_main.cpp:313`. -/
def drop {α : Type} (c : Cmd α) : Cmd Unit := do
  let _ ← c
  pure ()

/-- `lookup_group_t`, `/repo/cli/spiff/spiff_main.cpp:242-245`. -/
structure Group where
  title : List Char
  cmds : Table

/-- `z_lookups`, `/repo/cli/spiff/spiff_main.cpp:39-50`. -/
def zCmds (e : Env) : Table :=
  [("z_op".toList, z_op),
    ("z_gcd".toList, z_gcd),
    ("z_lcm".toList, z_lcm),
    ("z_totient".toList, z_totient),
    ("z_test_prime".toList, z_test_prime),
    ("spffl::intmath::nth_prime".toList, nth_prime_cmd),
    ("z_list".toList, z_list),
    ("z_factor".toList, z_factor),
    ("z_divisors".toList, z_divisors),
    ("z_mat_op".toList, z_mat_op e.files)]

/-- `q_lookups`, `/repo/cli/spiff/spiff_main.cpp:52-58`. -/
def qCmds (e : Env) : Table :=
  [("q_op".toList, q_op),
    ("q_vec_op".toList, q_vec_op),
    ("q_mat_op".toList, q_mat_op e.files),
    ("q_cyclotomic".toList, q_cyclotomic),
    ("q_p_op".toList, q_p_op)]

/-- `f2_lookups`, `/repo/cli/spiff/spiff_main.cpp:60-68`. -/
def f2Cmds (e : Env) : Table :=
  [("f2_op".toList, f2_op e.r0),
    ("f2_random".toList, f2_random e.src),
    ("f2_vec_op".toList, f2_vec_op e.r0),
    ("f2_mat_op".toList, f2_mat_op e.r0 e.files),
    ("f2_mat_ch_pol".toList, f2_mat_ch_pol e.r0 e.filesL e.stdin),
    ("f2_mat_ord".toList, f2_mat_ord e.r0 e.fuel e.stdin),
    ("f2_mat_random".toList, f2_mat_random e.src e.r0)]

/-- `f2_p_lookups`, `/repo/cli/spiff/spiff_main.cpp:70-87`. -/
def f2PCmds (e : Env) : Table :=
  [("f2_p_list".toList, f2_p_list),
    ("f2_p_op".toList, f2_p_op),
    ("f2_p_deg".toList, f2_p_deg e.tm),
    ("f2_p_gcd".toList, f2_p_gcd e.tm),
    ("f2_p_lcm".toList, f2_p_lcm e.tm),
    ("f2_p_totient".toList, f2_p_totient e.tm),
    ("f2_p_test".toList, f2_p_test e.tm),
    ("f2_p_find".toList, f2_p_find e.tm),
    ("f2_p_period".toList, f2_p_period e.tm),
    ("f2_p_factor".toList, f2_p_factor e.tm),
    ("f2_p_divisors".toList, f2_p_divisors e.tm),
    ("f2_p_eval".toList, f2_p_eval),
    ("f2_p_random".toList, f2_p_random e.src),
    ("f2_p_qp".toList, f2_p_qp),
    ("f2_p_mat_op".toList, f2_p_mat_op e.files),
    ("f2_p_comp_mx".toList, f2_p_comp_mx)]

/-- `f2_pm_lookups`, `/repo/cli/spiff/spiff_main.cpp:89-107`. -/
def f2PmCmds (e : Env) : Table :=
  [("f2_pm_list".toList, f2_pm_list e.tm e.sortF2),
    ("f2_pm_op".toList, f2_pm_op),
    ("f2_pm_tbl".toList, f2_pm_tbl e.tm e.sortF2),
    ("f2_pm_ord".toList, f2_pm_ord e.tm e.sortF2),
    ("f2_pm_find_gen".toList, fun a => drop (f2_pm_find_gen e.tm e.sortF2 a)),
    ("f2_pm_log".toList, f2_pm_log e.tm e.sortF2),
    ("f2_pm_ch_pol".toList, f2_pm_ch_pol e.tm e.fuel),
    ("f2_pm_min_pol".toList, f2_pm_min_pol e.tm e.fuel),
    ("f2_pm_convert".toList, f2_pm_convert e.tm e.sortF2 e.sortElts),
    ("f2_pm_random".toList, f2_pm_random e.src),
    ("f2_pm_mat_op".toList, f2_pm_mat_op e.files),
    ("f2_pm_vec_op".toList, f2_pm_vec_op),
    ("f2_pm_mat_solve".toList, fun a => drop (f2_pm_mat_solve e.filesL e.stdin a)),
    ("f2_pm_mat_ch_pol".toList, f2_pm_mat_ch_pol e.filesL e.stdin),
    ("f2_pm_mat_diagonalizable".toList, f2_pm_mat_diagonalizable e.tm e.sortF2 e.sortElts e.filesL e.stdin),
    ("f2_pm_mat_ord".toList, f2_pm_mat_ord e.fuel e.stdin),
    ("f2_pm_mat_random".toList, f2_pm_mat_random e.src)]

/-- `f2_pr_lookups`, `/repo/cli/spiff/spiff_main.cpp:109-114`. -/
def f2PrCmds (e : Env) : Table :=
  [("f2_pr_op".toList, f2_pr_op),
    ("f2_pr_random".toList, f2_pr_random e.src),
    ("f2_pr_mat_op".toList, f2_pr_mat_op e.files),
    ("f2_pr_mat_random".toList, f2_pr_mat_random e.src)]

/-- `f2n_p_lookups`, `/repo/cli/spiff/spiff_main.cpp:116-131`. -/
def f2nPCmds (e : Env) : Table :=
  [("f2n_p_list".toList, f2n_p_list),
    ("f2n_p_op".toList, f2n_p_op),
    ("f2n_p_mat_op".toList, f2n_p_mat_op e.files),
    ("f2n_p_deg".toList, f2n_p_deg),
    ("f2n_p_gcd".toList, f2n_p_gcd),
    ("f2n_p_lcm".toList, f2n_p_lcm),
    ("f2n_p_totient".toList, f2n_p_totient),
    ("f2n_p_test".toList, f2n_p_test),
    ("f2n_p_find".toList, f2n_p_find),
    ("f2n_p_factor".toList, f2n_p_factor),
    ("f2n_p_divisors".toList, f2n_p_divisors),
    ("f2n_p_eval".toList, f2n_p_eval),
    ("f2n_p_random".toList, f2n_p_random e.src),
    ("f2n_p_comp_mx".toList, f2n_p_comp_mx)]

/-- `f2n_pm_lookups`, `/repo/cli/spiff/spiff_main.cpp:133-147`. -/
def f2nPmCmds (e : Env) : Table :=
  [("f2n_pm_list".toList, f2n_pm_list e.dF2n e.sortF2n),
    ("f2n_pm_op".toList, f2n_pm_op),
    ("f2n_pm_tbl".toList, f2n_pm_tbl e.dF2n e.sortF2n),
    ("f2n_pm_ord".toList, f2n_pm_ord e.dF2n e.sortF2n),
    ("f2n_pm_find_gen".toList, fun a => drop (f2n_pm_find_gen e.dF2n e.sortF2n a)),
    ("f2n_pm_log".toList, f2n_pm_log e.sortF2n),
    ("f2n_pm_ch_pol".toList, f2n_pm_ch_pol e.fuel),
    ("f2n_pm_min_pol".toList, f2n_pm_min_pol e.fuel),
    ("f2n_pm_random".toList, f2n_pm_random e.src),
    ("f2n_p_qp".toList, f2n_p_qp),
    ("f2n_pm_mat_op".toList, f2n_pm_mat_op e.files),
    ("f2n_pm_vec_op".toList, f2n_pm_vec_op),
    ("f2n_pm_mat_random".toList, f2n_pm_mat_random e.src)]

/-- `f2n_pr_lookups`, `/repo/cli/spiff/spiff_main.cpp:149-152`. -/
def f2nPrCmds (e : Env) : Table :=
  [("f2n_pr_op".toList, f2n_pr_op),
    ("f2n_pr_mat_op".toList, f2n_pr_mat_op e.files)]

/-- `fp_lookups`, `/repo/cli/spiff/spiff_main.cpp:154-169`. -/
def fpCmds (e : Env) : Table :=
  [("fp_list".toList, fp_list e.sortFp),
    ("fp_op".toList, fp_op),
    ("fp_tbl".toList, fp_tbl e.sortFp),
    ("fp_ord".toList, fp_ord e.sortFp),
    ("fp_max_ord".toList, fp_max_ord e.sortFp),
    ("fp_orbit".toList, fp_orbit),
    ("fp_find_gen".toList, fun a => drop (fp_find_gen e.sortFp a)),
    ("fp_log".toList, fp_log e.sortFp),
    ("fp_random".toList, fp_random e.src),
    ("fp_mat_op".toList, fp_mat_op e.files),
    ("fp_vec_op".toList, fp_vec_op),
    ("fp_mat_ch_pol".toList, fp_mat_ch_pol e.filesL e.stdin),
    ("fp_mat_ord".toList, fp_mat_ord e.fuel e.stdin),
    ("fp_mat_random".toList, fp_mat_random e.src)]

/-- `fp_p_lookups`, `/repo/cli/spiff/spiff_main.cpp:171-187`. -/
def fpPCmds (e : Env) : Table :=
  [("fp_p_list".toList, fp_p_list),
    ("fp_p_op".toList, fp_p_op),
    ("fp_p_mat_op".toList, fp_p_mat_op e.files),
    ("fp_p_comp_mx".toList, fp_p_comp_mx),
    ("fp_p_deg".toList, fp_p_deg),
    ("fp_p_gcd".toList, fp_p_gcd),
    ("fp_p_lcm".toList, fp_p_lcm),
    ("fp_p_totient".toList, fp_p_totient),
    ("fp_p_test".toList, fp_p_test),
    ("fp_p_find".toList, fp_p_find),
    ("fp_p_factor".toList, fp_p_factor),
    ("fp_p_divisors".toList, fp_p_divisors),
    ("fp_p_eval".toList, fp_p_eval),
    ("fp_p_random".toList, fp_p_random e.src),
    ("fp_p_qp".toList, fp_p_qp)]

/-- `fp_pm_lookups`, `/repo/cli/spiff/spiff_main.cpp:189-201`. -/
def fpPmCmds (e : Env) : Table :=
  [("fp_pm_list".toList, fp_pm_list e.dFp),
    ("fp_pm_op".toList, fp_pm_op),
    ("fp_pm_tbl".toList, fp_pm_tbl e.dFp),
    ("fp_pm_ord".toList, fp_pm_ord e.fuel),
    ("fp_pm_ch_pol".toList, fp_pm_ch_pol e.fuel),
    ("fp_pm_min_pol".toList, fp_pm_min_pol e.fuel),
    ("fp_pm_random".toList, fp_pm_random e.src),
    ("fp_pm_mat_op".toList, fp_pm_mat_op e.files),
    ("fp_pm_vecop".toList, fp_pm_vecop),
    ("fp_pm_mat_ord".toList, fp_pm_mat_ord e.fuel e.stdin),
    ("fp_pm_mat_random".toList, fp_pm_mat_random e.src)]

/-- `fp_pr_lookups`, `/repo/cli/spiff/spiff_main.cpp:203-206`. -/
def fpPrCmds (e : Env) : Table :=
  [("fp_pr_op".toList, fp_pr_op),
    ("fp_pr_mat_op".toList, fp_pr_mat_op e.files)]

/-- `fpn_p_lookups`, `/repo/cli/spiff/spiff_main.cpp:208-225`. -/
def fpnPCmds (e : Env) : Table :=
  [("fpn_p_op".toList, fpn_p_op),
    ("fpn_p_mat_op".toList, fpn_p_mat_op e.files),
    ("fpn_p_gcd".toList, fpn_p_gcd),
    ("fpn_p_qp".toList, fpn_p_qp)]

/-- `fpn_pm_lookups`, `/repo/cli/spiff/spiff_main.cpp:227-238`. -/
def fpnPmCmds (e : Env) : Table :=
  [("fpn_pm_op".toList, fpn_pm_op),
    ("fpn_pm_mat_op".toList, fpn_pm_mat_op e.files)]

/-- `lookup_groups`, `/repo/cli/spiff/spiff_main.cpp:247-265`. -/
def groups (e : Env) : List Group :=
  [⟨"Integers".toList, zCmds e⟩,
    ⟨"Quotient field of integers".toList, qCmds e⟩,
    ⟨"F2 (bits)".toList, f2Cmds e⟩,
    ⟨"Polynomials over F2".toList, f2PCmds e⟩,
    ⟨"Residue field of F2 polynomials (F2^n)".toList, f2PmCmds e⟩,
    ⟨"Quotient field of F2 polynomials".toList, f2PrCmds e⟩,
    ⟨"Polynomials of F2^n".toList, f2nPCmds e⟩,
    ⟨"Residue field of F2^n polynomials".toList, f2nPmCmds e⟩,
    ⟨"Quotient field of F2^n polynomials".toList, f2nPrCmds e⟩,
    ⟨"Fp (modular arithmetic)".toList, fpCmds e⟩,
    ⟨"Polynomials over Fp".toList, fpPCmds e⟩,
    ⟨"Residue field of Fp polynomials".toList, fpPmCmds e⟩,
    ⟨"Quotient field of Fp polynomials".toList, fpPrCmds e⟩,
    ⟨"Polynomials over Fp^n".toList, fpnPCmds e⟩,
    ⟨"Residue field of Fp^n polynomials".toList, fpnPmCmds e⟩]

/-- The output of `-l`, `/repo/cli/spiff/spiff_main.cpp:288-294`. -/
def listing : List Group → List Char
  | [] => []
  | g :: G => g.title ++ ":\n".toList ++ g.cmds.flatMap (fun c => "  ".toList ++ c.1 ++ "\n".toList) ++ listing G

/-- The search through the groups, `/repo/cli/spiff/spiff_main.cpp:298-305`. -/
def find : List Group → List Char → List (List Char) → Option (Cmd Unit)
  | [], _, _ => none
  | g :: G, c, args =>
    match dispatch g.cmds c args with
    | some x => some x
    | none => find G c args

/-- `/repo/cli/spiff/spiff_main.cpp:283-308` and `main`, 311-318, once there are no braces: what is printed and the exit
status. -/
def plainMain (G : List Group) : List (List Char) → Res (List Char × Int)
  | [] => ok ([], 1)
  | c :: args =>
    if c = "-l".toList then ok (listing G, 0)
    else
      match find G c args with
      | none => ok ([], 0)
      | some x => Res.bind x.run fun r => ok (r.1, match r.2 with
        | .exit1 => 1
        | _ => 0)

/-- Characters of the source are bytes of the command line. -/
def toBytes (l : List Char) : CStr := l.map fun c => BitVec.ofNat 8 c.toNat

def ofBytes (l : CStr) : List Char := l.map fun b => Char.ofNat b.toNat

/-- `main`, `/repo/cli/spiff/spiff_main.cpp:275-318`, with at most `k` rounds of interpolation.  An exception of the
interpolation is reported on the standard error and the status is 0. -/
def program (G : List Group) (popen : CStr → Option (List Byte)) (exe : CStr) (k : Nat) (argv : List CStr) :
    Res (List Char × Int) :=
  match cmd_interpolate popen exe k argv with
  | ok r => plainMain G (r.map ofBytes)
  | .throw => ok ([], 0)
  | ub => ub
  | timeout => timeout

/-- Bytes without a meaning for the shell: letters, digits and `_ - + . , : / % ^ @`. -/
def plainByte (b : Byte) : Bool :=
  (48 ≤ b && b ≤ 57) || (65 ≤ b && b ≤ 90) || (97 ≤ b && b ≤ 122) ||
    [95, 45, 43, 46, 44, 58, 47, 37, 94, 64].contains b

def plainWord (w : CStr) : Bool := w == LBRK || w == RBRK || (!w.isEmpty && w.all plainByte)

/-- The words of a command line. -/
def shWords (cmd : CStr) : List CStr := (cmd.splitOnP (· == 32)).filter (!·.isEmpty)

/-- What `popen` gives for a command line, when `run` is what the program does. -/
def shell (run : List CStr → Res (List Char × Int)) (exe : CStr) (other : CStr → Option (List Byte)) (cmd : CStr) :
    Option (List Byte) :=
  match shWords cmd with
  | [] => other cmd
  | e :: args =>
    if e = exe ∧ args.all plainWord then
      match run args with
      | ok r => some (toBytes r.1)
      | _ => other cmd
    else other cmd

/-- The program run by a shell that runs the program for the commands in braces; `n` bounds the depth of braces and the
rounds of interpolation. -/
def self (G : List Group) (exe : CStr) (other : CStr → Option (List Byte)) : Nat → List CStr → Res (List Char × Int)
  | 0 => fun _ => timeout
  | n + 1 => program G (shell (self G exe other n) exe other) exe (n + 1)

end Spffl.Cmd
