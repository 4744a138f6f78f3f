import Verif.Proof.Program
import Verif.Props.Text
import Verif.Props.Cmd

/-!
# C110: the program

`self (groups e) exe other n argv` is the whole program: braces are replaced by the tokens that the program itself
prints, by way of the shell, then the command is looked up and run.  The result is what is printed and the exit status.
-/

namespace Spffl.Props.Cmd110
open Res Spffl.Cmd Spffl.Props.Text Scan Spffl.Props.Cmd100

/-! ### What the program does, as relations -/

/-- Without braces: what is printed and the exit status, for a list of arguments. -/
inductive Does (G : List Group) : List (List Char) → List Char → Int → Prop
  | none : Does G [] [] 1
  | list {args : List (List Char)} : Does G ("-l".toList :: args)
      (G.flatMap fun g => g.title ++ ":\n".toList ++ g.cmds.flatMap fun c => "  ".toList ++ c.1 ++ "\n".toList) 0
  | prints {c : List Char} {args : List (List Char)} {f : List (List Char) → Cmd Unit} {t : List Char}
      (hf : (c, f) ∈ G.flatMap Group.cmds) (h : Prints (f args) t ()) : Does G (c :: args) t 0
  | throws {c : List Char} {args : List (List Char)} {f : List (List Char) → Cmd Unit} {t : List Char}
      (hf : (c, f) ∈ G.flatMap Group.cmds) (h : ThrowsC (f args) t) : Does G (c :: args) t 0
  | exits {c : List Char} {args : List (List Char)} {f : List (List Char) → Cmd Unit} {t : List Char}
      (hf : (c, f) ∈ G.flatMap Group.cmds) (h : Exits (f args) t) : Does G (c :: args) t 1
  | unknown {c : List Char} {args : List (List Char)} (hl : c ≠ "-l".toList)
      (hf : ∀ x ∈ G.flatMap Group.cmds, c ≠ x.1) : Does G (c :: args) [] 0

/-- A command in braces that the shell runs as it stands, and output that the interpolation takes as it stands: plain
words, no zero byte, no stretch of more than 4095 bytes without a newline, lengths within `int`, no lone brace. -/
structure Fits (exe : CStr) (g : List CStr) (out : List Char) : Prop where
  plain : g.all plainWord = true
  zero : (0 : Byte) ∉ toBytes out
  lines : ShortLines (toBytes out)
  len : 3 * (out.length : Int) ≤ INT_MAX
  cmd : ((cmdline exe g).length : Int) + 1 ≤ INT_MAX
  clean : LBRK ∉ outTokens (toBytes out) ∧ RBRK ∉ outTokens (toBytes out)

/-- With braces: each command in braces is replaced by the tokens of what it prints, whatever its status. -/
inductive Runs (G : List Group) (exe : CStr) : List CStr → List Char → Int → Prop
  | plain {argv : List CStr} {out : List Char} {st : Int} (hb : LBRK ∉ argv ∧ RBRK ∉ argv)
      (h : Does G (argv.map ofBytes) out st) : Runs G exe argv out st
  | braces {its : List Item} {out : List CStr → List Char} {st : List CStr → Int} {o : List Char} {s : Int}
      (hi : ∀ i ∈ its, i.Ok) (hg : ∀ g, Item.group g ∈ its → Runs G exe g (out g) (st g))
      (hf : ∀ g, Item.group g ∈ its → Fits exe g (out g))
      (hn : 2 * ((its.flatMap (Item.value fun g => outTokens (toBytes (out g)))).length : Int) +
        (its.flatMap Item.flat).length ≤ INT_MAX)
      (h : Does G ((its.flatMap (Item.value fun g => outTokens (toBytes (out g)))).map ofBytes) o s) :
      Runs G exe (its.flatMap Item.flat) o s

/-! ### The names -/

variable {e : Env} {exe : CStr} {other : CStr → Option (List Byte)}

/-- The headings and the names of the commands. -/
def headings : List (String × List String) :=
  [("Integers", ["z_op", "z_gcd", "z_lcm", "z_totient", "z_test_prime", "spffl::intmath::nth_prime", "z_list",
      "z_factor", "z_divisors", "z_mat_op"]),
    ("Quotient field of integers", ["q_op", "q_vec_op", "q_mat_op", "q_cyclotomic", "q_p_op"]),
    ("F2 (bits)", ["f2_op", "f2_random", "f2_vec_op", "f2_mat_op", "f2_mat_ch_pol", "f2_mat_ord",
      "f2_mat_random"]),
    ("Polynomials over F2", ["f2_p_list", "f2_p_op", "f2_p_deg", "f2_p_gcd", "f2_p_lcm", "f2_p_totient",
      "f2_p_test", "f2_p_find", "f2_p_period", "f2_p_factor", "f2_p_divisors", "f2_p_eval", "f2_p_random",
      "f2_p_qp", "f2_p_mat_op", "f2_p_comp_mx"]),
    ("Residue field of F2 polynomials (F2^n)", ["f2_pm_list", "f2_pm_op", "f2_pm_tbl", "f2_pm_ord",
      "f2_pm_find_gen", "f2_pm_log", "f2_pm_ch_pol", "f2_pm_min_pol", "f2_pm_convert", "f2_pm_random",
      "f2_pm_mat_op", "f2_pm_vec_op", "f2_pm_mat_solve", "f2_pm_mat_ch_pol", "f2_pm_mat_diagonalizable",
      "f2_pm_mat_ord", "f2_pm_mat_random"]),
    ("Quotient field of F2 polynomials", ["f2_pr_op", "f2_pr_random", "f2_pr_mat_op", "f2_pr_mat_random"]),
    ("Polynomials of F2^n", ["f2n_p_list", "f2n_p_op", "f2n_p_mat_op", "f2n_p_deg", "f2n_p_gcd", "f2n_p_lcm",
      "f2n_p_totient", "f2n_p_test", "f2n_p_find", "f2n_p_factor", "f2n_p_divisors", "f2n_p_eval",
      "f2n_p_random", "f2n_p_comp_mx"]),
    ("Residue field of F2^n polynomials", ["f2n_pm_list", "f2n_pm_op", "f2n_pm_tbl", "f2n_pm_ord",
      "f2n_pm_find_gen", "f2n_pm_log", "f2n_pm_ch_pol", "f2n_pm_min_pol", "f2n_pm_random", "f2n_p_qp",
      "f2n_pm_mat_op", "f2n_pm_vec_op", "f2n_pm_mat_random"]),
    ("Quotient field of F2^n polynomials", ["f2n_pr_op", "f2n_pr_mat_op"]),
    ("Fp (modular arithmetic)", ["fp_list", "fp_op", "fp_tbl", "fp_ord", "fp_max_ord", "fp_orbit",
      "fp_find_gen", "fp_log", "fp_random", "fp_mat_op", "fp_vec_op", "fp_mat_ch_pol", "fp_mat_ord",
      "fp_mat_random"]),
    ("Polynomials over Fp", ["fp_p_list", "fp_p_op", "fp_p_mat_op", "fp_p_comp_mx", "fp_p_deg", "fp_p_gcd",
      "fp_p_lcm", "fp_p_totient", "fp_p_test", "fp_p_find", "fp_p_factor", "fp_p_divisors", "fp_p_eval",
      "fp_p_random", "fp_p_qp"]),
    ("Residue field of Fp polynomials", ["fp_pm_list", "fp_pm_op", "fp_pm_tbl", "fp_pm_ord", "fp_pm_ch_pol",
      "fp_pm_min_pol", "fp_pm_random", "fp_pm_mat_op", "fp_pm_vecop", "fp_pm_mat_ord", "fp_pm_mat_random"]),
    ("Quotient field of Fp polynomials", ["fp_pr_op", "fp_pr_mat_op"]),
    ("Polynomials over Fp^n", ["fpn_p_op", "fpn_p_mat_op", "fpn_p_gcd", "fpn_p_qp"]),
    ("Residue field of Fp^n polynomials", ["fpn_pm_op", "fpn_pm_mat_op"])]

def names : List String := headings.flatMap Prod.snd

set_option maxRecDepth 10000 in
theorem names_eq (e : Env) : ((groups e).flatMap Group.cmds).map Prod.fst = names.map String.toList := rfl

/-- C110: the names of the commands are distinct, and none is `-l`. -/
theorem C110_names (e : Env) : (((groups e).flatMap Group.cmds).map Prod.fst).Nodup ∧
    "-l".toList ∉ ((groups e).flatMap Group.cmds).map Prod.fst := by
  rw [names_eq]
  constructor <;> decide +kernel

/-- The commands by name, in alphabetical order. -/
def commands (e : Env) : Table :=
  [("f2_mat_ch_pol".toList, f2_mat_ch_pol e.r0 e.filesL e.stdin),
    ("f2_mat_op".toList, f2_mat_op e.r0 e.files),
    ("f2_mat_ord".toList, f2_mat_ord e.r0 e.fuel e.stdin),
    ("f2_mat_random".toList, f2_mat_random e.src e.r0),
    ("f2_op".toList, f2_op e.r0),
    ("f2_p_comp_mx".toList, f2_p_comp_mx),
    ("f2_p_deg".toList, f2_p_deg e.tm),
    ("f2_p_divisors".toList, f2_p_divisors e.tm),
    ("f2_p_eval".toList, f2_p_eval),
    ("f2_p_factor".toList, f2_p_factor e.tm),
    ("f2_p_find".toList, f2_p_find e.tm),
    ("f2_p_gcd".toList, f2_p_gcd e.tm),
    ("f2_p_lcm".toList, f2_p_lcm e.tm),
    ("f2_p_list".toList, f2_p_list),
    ("f2_p_mat_op".toList, f2_p_mat_op e.files),
    ("f2_p_op".toList, f2_p_op),
    ("f2_p_period".toList, f2_p_period e.tm),
    ("f2_p_qp".toList, f2_p_qp),
    ("f2_p_random".toList, f2_p_random e.src),
    ("f2_p_test".toList, f2_p_test e.tm),
    ("f2_p_totient".toList, f2_p_totient e.tm),
    ("f2_pm_ch_pol".toList, f2_pm_ch_pol e.tm e.fuel),
    ("f2_pm_convert".toList, f2_pm_convert e.tm e.sortF2 e.sortElts),
    ("f2_pm_find_gen".toList, fun a => f2_pm_find_gen e.tm e.sortF2 a >>= fun _ => pure ()),
    ("f2_pm_list".toList, f2_pm_list e.tm e.sortF2),
    ("f2_pm_log".toList, f2_pm_log e.tm e.sortF2),
    ("f2_pm_mat_ch_pol".toList, f2_pm_mat_ch_pol e.filesL e.stdin),
    ("f2_pm_mat_diagonalizable".toList, f2_pm_mat_diagonalizable e.tm e.sortF2 e.sortElts e.filesL e.stdin),
    ("f2_pm_mat_op".toList, f2_pm_mat_op e.files),
    ("f2_pm_mat_ord".toList, f2_pm_mat_ord e.fuel e.stdin),
    ("f2_pm_mat_random".toList, f2_pm_mat_random e.src),
    ("f2_pm_mat_solve".toList, fun a => f2_pm_mat_solve e.filesL e.stdin a >>= fun _ => pure ()),
    ("f2_pm_min_pol".toList, f2_pm_min_pol e.tm e.fuel),
    ("f2_pm_op".toList, f2_pm_op),
    ("f2_pm_ord".toList, f2_pm_ord e.tm e.sortF2),
    ("f2_pm_random".toList, f2_pm_random e.src),
    ("f2_pm_tbl".toList, f2_pm_tbl e.tm e.sortF2),
    ("f2_pm_vec_op".toList, f2_pm_vec_op),
    ("f2_pr_mat_op".toList, f2_pr_mat_op e.files),
    ("f2_pr_mat_random".toList, f2_pr_mat_random e.src),
    ("f2_pr_op".toList, f2_pr_op),
    ("f2_pr_random".toList, f2_pr_random e.src),
    ("f2_random".toList, f2_random e.src),
    ("f2_vec_op".toList, f2_vec_op e.r0),
    ("f2n_p_comp_mx".toList, f2n_p_comp_mx),
    ("f2n_p_deg".toList, f2n_p_deg),
    ("f2n_p_divisors".toList, f2n_p_divisors),
    ("f2n_p_eval".toList, f2n_p_eval),
    ("f2n_p_factor".toList, f2n_p_factor),
    ("f2n_p_find".toList, f2n_p_find),
    ("f2n_p_gcd".toList, f2n_p_gcd),
    ("f2n_p_lcm".toList, f2n_p_lcm),
    ("f2n_p_list".toList, f2n_p_list),
    ("f2n_p_mat_op".toList, f2n_p_mat_op e.files),
    ("f2n_p_op".toList, f2n_p_op),
    ("f2n_p_qp".toList, f2n_p_qp),
    ("f2n_p_random".toList, f2n_p_random e.src),
    ("f2n_p_test".toList, f2n_p_test),
    ("f2n_p_totient".toList, f2n_p_totient),
    ("f2n_pm_ch_pol".toList, f2n_pm_ch_pol e.fuel),
    ("f2n_pm_find_gen".toList, fun a => f2n_pm_find_gen e.dF2n e.sortF2n a >>= fun _ => pure ()),
    ("f2n_pm_list".toList, f2n_pm_list e.dF2n e.sortF2n),
    ("f2n_pm_log".toList, f2n_pm_log e.sortF2n),
    ("f2n_pm_mat_op".toList, f2n_pm_mat_op e.files),
    ("f2n_pm_mat_random".toList, f2n_pm_mat_random e.src),
    ("f2n_pm_min_pol".toList, f2n_pm_min_pol e.fuel),
    ("f2n_pm_op".toList, f2n_pm_op),
    ("f2n_pm_ord".toList, f2n_pm_ord e.dF2n e.sortF2n),
    ("f2n_pm_random".toList, f2n_pm_random e.src),
    ("f2n_pm_tbl".toList, f2n_pm_tbl e.dF2n e.sortF2n),
    ("f2n_pm_vec_op".toList, f2n_pm_vec_op),
    ("f2n_pr_mat_op".toList, f2n_pr_mat_op e.files),
    ("f2n_pr_op".toList, f2n_pr_op),
    ("fp_find_gen".toList, fun a => fp_find_gen e.sortFp a >>= fun _ => pure ()),
    ("fp_list".toList, fp_list e.sortFp),
    ("fp_log".toList, fp_log e.sortFp),
    ("fp_mat_ch_pol".toList, fp_mat_ch_pol e.filesL e.stdin),
    ("fp_mat_op".toList, fp_mat_op e.files),
    ("fp_mat_ord".toList, fp_mat_ord e.fuel e.stdin),
    ("fp_mat_random".toList, fp_mat_random e.src),
    ("fp_max_ord".toList, fp_max_ord e.sortFp),
    ("fp_op".toList, fp_op),
    ("fp_orbit".toList, fp_orbit),
    ("fp_ord".toList, fp_ord e.sortFp),
    ("fp_p_comp_mx".toList, fp_p_comp_mx),
    ("fp_p_deg".toList, fp_p_deg),
    ("fp_p_divisors".toList, fp_p_divisors),
    ("fp_p_eval".toList, fp_p_eval),
    ("fp_p_factor".toList, fp_p_factor),
    ("fp_p_find".toList, fp_p_find),
    ("fp_p_gcd".toList, fp_p_gcd),
    ("fp_p_lcm".toList, fp_p_lcm),
    ("fp_p_list".toList, fp_p_list),
    ("fp_p_mat_op".toList, fp_p_mat_op e.files),
    ("fp_p_op".toList, fp_p_op),
    ("fp_p_qp".toList, fp_p_qp),
    ("fp_p_random".toList, fp_p_random e.src),
    ("fp_p_test".toList, fp_p_test),
    ("fp_p_totient".toList, fp_p_totient),
    ("fp_pm_ch_pol".toList, fp_pm_ch_pol e.fuel),
    ("fp_pm_list".toList, fp_pm_list e.dFp),
    ("fp_pm_mat_op".toList, fp_pm_mat_op e.files),
    ("fp_pm_mat_ord".toList, fp_pm_mat_ord e.fuel e.stdin),
    ("fp_pm_mat_random".toList, fp_pm_mat_random e.src),
    ("fp_pm_min_pol".toList, fp_pm_min_pol e.fuel),
    ("fp_pm_op".toList, fp_pm_op),
    ("fp_pm_ord".toList, fp_pm_ord e.fuel),
    ("fp_pm_random".toList, fp_pm_random e.src),
    ("fp_pm_tbl".toList, fp_pm_tbl e.dFp),
    ("fp_pm_vecop".toList, fp_pm_vecop),
    ("fp_pr_mat_op".toList, fp_pr_mat_op e.files),
    ("fp_pr_op".toList, fp_pr_op),
    ("fp_random".toList, fp_random e.src),
    ("fp_tbl".toList, fp_tbl e.sortFp),
    ("fp_vec_op".toList, fp_vec_op),
    ("fpn_p_gcd".toList, fpn_p_gcd),
    ("fpn_p_mat_op".toList, fpn_p_mat_op e.files),
    ("fpn_p_op".toList, fpn_p_op),
    ("fpn_p_qp".toList, fpn_p_qp),
    ("fpn_pm_mat_op".toList, fpn_pm_mat_op e.files),
    ("fpn_pm_op".toList, fpn_pm_op),
    ("q_cyclotomic".toList, q_cyclotomic),
    ("q_mat_op".toList, q_mat_op e.files),
    ("q_op".toList, q_op),
    ("q_p_op".toList, q_p_op),
    ("q_vec_op".toList, q_vec_op),
    ("spffl::intmath::nth_prime".toList, nth_prime_cmd),
    ("z_divisors".toList, z_divisors),
    ("z_factor".toList, z_factor),
    ("z_gcd".toList, z_gcd),
    ("z_lcm".toList, z_lcm),
    ("z_list".toList, z_list),
    ("z_mat_op".toList, z_mat_op e.files),
    ("z_op".toList, z_op),
    ("z_test_prime".toList, z_test_prime),
    ("z_totient".toList, z_totient)]

def order : List Nat :=
  [19, 18, 20, 21, 15, 37, 24, 32, 33, 31, 29, 25, 26, 22, 36, 23, 30, 35, 34, 28, 27, 44, 46, 42, 38, 43, 51, 52,
    48, 53, 54, 50, 45, 39, 41, 47, 40, 49, 57, 58, 55, 56, 16, 17, 72, 62, 69, 70, 68, 67, 63, 64, 59, 61, 60, 82,
    71, 66, 65, 79, 77, 73, 78, 83, 85, 80, 74, 76, 81, 75, 84, 87, 86, 94, 88, 95, 99, 97, 100, 101, 92, 89, 93,
    91, 105, 106, 113, 114, 112, 111, 107, 108, 102, 104, 103, 116, 115, 110, 109, 121, 117, 124, 126, 127, 122,
    118, 120, 123, 119, 125, 129, 128, 96, 90, 98, 132, 131, 130, 133, 135, 134, 13, 12, 10, 14, 11, 5, 8, 7, 1, 2,
    6, 9, 0, 4, 3]

set_option maxRecDepth 20000 in
theorem commands_eq (e : Env) : (order.filterMap fun i => ((groups e).flatMap Group.cmds)[i]?) = commands e := rfl

/-- C110: every name runs its own command. -/
theorem C110_commands (e : Env) {c : List Char} {f : List (List Char) → Cmd Unit} (h : (c, f) ∈ commands e)
    (args : List (List Char)) : find (groups e) c args = some (f args) := by
  rw [find_eq, dispatch_some (C110_names e).1]
  rw [← commands_eq] at h
  obtain ⟨i, -, hi⟩ := List.mem_filterMap.1 h
  exact List.mem_of_getElem? hi

theorem does_plainMain {argv : List (List Char)} {out : List Char} {st : Int} (h : Does (groups e) argv out st) :
    plainMain (groups e) argv = ok (out, st) := by
  have key : ∀ {c : List Char} {f : List (List Char) → Cmd Unit} (args : List (List Char)),
      (c, f) ∈ (groups e).flatMap Group.cmds → plainMain (groups e) (c :: args) =
        Res.bind (f args).run fun r => ok (r.1, match r.2 with
        | .exit1 => 1
        | _ => 0) := by
    intro c f args hf
    rw [plainMain, if_neg, find_eq, dispatch_some (C110_names e).1 hf]
    · rfl
    rintro rfl
    exact (C110_names e).2 (List.mem_map.2 ⟨_, hf, rfl⟩)
  cases h with
  | none => rfl
  | list => rw [plainMain, if_pos rfl, listing_eq]
  | prints hf h => rw [key _ hf, show _ = _ from h]; rfl
  | throws hf h => rw [key _ hf, show _ = _ from h]; rfl
  | exits hf h => rw [key _ hf, show _ = _ from h]; rfl
  | unknown hl hf =>
    rw [plainMain, if_neg hl, find_eq, dispatch_none]
    intro h
    obtain ⟨x, h1, h2⟩ := List.mem_map.1 h
    exact hf x h1 h2.symm

theorem interpolate_plain {popen : CStr → Option (List Byte)} {argv : List CStr} (h : LBRK ∉ argv ∧ RBRK ∉ argv) (k : Nat) :
    cmd_interpolate popen exe (k + 1) argv = ok argv := by
  rw [cmd_interpolate, once_none h.1 h.2, ok_bind]

theorem uniform {α : Type} (P : α → Nat → Prop) : ∀ l : List α, (∀ a ∈ l, ∃ N, ∀ n, N ≤ n → P a n) →
    ∃ N, ∀ n, N ≤ n → ∀ a ∈ l, P a n := by
  intro l
  induction l with
  | nil => intro _; exact ⟨0, fun _ _ a h => absurd h (by simp)⟩
  | cons a l ih =>
    intro h
    obtain ⟨N, hN⟩ := h a (by simp)
    obtain ⟨M, hM⟩ := ih fun b hb => h b (by simp [hb])
    refine ⟨max N M, fun n hn b hb => ?_⟩
    rcases List.mem_cons.1 hb with rfl | hb
    · exact hN n (by omega)
    · exact hM n (by omega) b hb

/-- C110: the program does what the relation says, braces to any depth, whatever the shell does with other command lines. -/
theorem C110_braces {argv : List CStr} {out : List Char} {st : Int} (he : plainWord exe = true)
    (h : Runs (groups e) exe argv out st) :
    ∃ N, ∀ n, N ≤ n → self (groups e) exe other n argv = ok (out, st) := by
  induction h with
  | plain hb h =>
    refine ⟨1, fun n hn => ?_⟩
    obtain ⟨n, rfl⟩ : ∃ m, n = m + 1 := ⟨n - 1, by omega⟩
    rw [self, program, interpolate_plain hb]
    exact does_plainMain h
  | @braces its out st o s hi hg hf hn h ih =>
    obtain ⟨N, hN⟩ := uniform (fun i n => ∀ g, i = Item.group g → self (groups e) exe other n g = ok (out g, st g)) its
      (fun i hi => by
        cases i with
        | word w => exact ⟨0, fun n _ g h => nomatch h⟩
        | group g =>
          obtain ⟨N, hN⟩ := ih g hi
          refine ⟨N, fun n hn g' h => ?_⟩
          cases h
          exact hN n hn)
    refine ⟨max N (its.map Item.groups).sum + 1, fun n hm => ?_⟩
    obtain ⟨n, rfl⟩ : ∃ m, n = m + 1 := ⟨n - 1, by omega⟩
    rw [self, program, C72_interpolate_partial (out := fun g => toBytes (out g)) hi (fun g hgi => ?_) hn (by omega)]
    · exact does_plainMain h
    · have F := hf g hgi
      refine ⟨shell_ok he F.plain (hN n (by omega) _ hgi g rfl), F.zero, F.lines, ?_, F.cmd, F.clean.1, F.clean.2⟩
      rw [toBytes, List.length_map]
      exact F.len

/-- C110: one answer for one list of arguments. -/
theorem C110_unique {argv : List CStr} {o o' : List Char} {s s' : Int} (he : plainWord exe = true)
    (h : Runs (groups e) exe argv o s) (h' : Runs (groups e) exe argv o' s') : o = o' ∧ s = s' := by
  obtain ⟨N, hN⟩ := C110_braces (other := fun _ => none) he h
  obtain ⟨M, hM⟩ := C110_braces (other := fun _ => none) he h'
  have := (hN (max N M) (by omega)).symm.trans (hM _ (by omega))
  cases this
  exact ⟨rfl, rfl⟩

/-! ### Without braces -/

theorem toBytes_brace {w b : List Char} (hw : Bytes w) (hb : Bytes b) (h : w ≠ b) : toBytes w ≠ toBytes b := by
  intro h'
  apply h
  rw [← ofBytes_toBytes hw, h', ofBytes_toBytes hb]

/-- A word of the command line: bytes, and no brace. -/
def Word (w : List Char) : Prop := Bytes w ∧ w ≠ ['{'] ∧ w ≠ ['}']

theorem words_clean {argv : List (List Char)} (hw : ∀ w ∈ argv, Word w) :
    LBRK ∉ argv.map toBytes ∧ RBRK ∉ argv.map toBytes := by
  have bl : Bytes ['{'] := by intro c hc; rw [List.mem_singleton] at hc; subst hc; decide
  have br : Bytes ['}'] := by intro c hc; rw [List.mem_singleton] at hc; subst hc; decide
  constructor
  · intro h
    obtain ⟨w, h1, h2⟩ := List.mem_map.1 h
    exact toBytes_brace (hw w h1).1 bl (hw w h1).2.1 h2
  · intro h
    obtain ⟨w, h1, h2⟩ := List.mem_map.1 h
    exact toBytes_brace (hw w h1).1 br (hw w h1).2.2 h2

/-- C110: without braces the program is the command of that name: its output, and status 1 exactly if it leaves by `exit(1)`
or there is no argument at all. -/
theorem C110_plain {argv : List (List Char)} {out : List Char} {st : Int} (hw : ∀ w ∈ argv, Word w)
    (h : Does (groups e) argv out st) (n : Nat) :
    self (groups e) exe other (n + 1) (argv.map toBytes) = ok (out, st) := by
  rw [self, program, interpolate_plain (words_clean hw)]
  show plainMain _ ((argv.map toBytes).map ofBytes) = _
  rw [map_ofBytes fun w h => (hw w h).1]
  exact does_plainMain h

theorem plainMain_does {argv : List (List Char)} {out : List Char} {st : Int}
    (h : plainMain (groups e) argv = ok (out, st)) : Does (groups e) argv out st := by
  cases argv with
  | nil => rw [plainMain] at h; cases h; exact .none
  | cons c args =>
    rw [plainMain] at h
    by_cases hl : c = "-l".toList
    · rw [if_pos hl, listing_eq] at h
      cases h
      rw [hl]
      exact .list
    · rw [if_neg hl, find_eq] at h
      cases hd : dispatch ((groups e).flatMap Group.cmds) c args with
      | none =>
        rw [hd] at h
        cases h
        refine .unknown hl fun x hx hc => ?_
        rw [dispatch_some (f := x.2) (C110_names e).1 (by rw [hc]; exact hx)] at hd
        cases hd
      | some x =>
        obtain ⟨f, hf, rfl⟩ := dispatch_mem hd
        rw [hd] at h
        simp only at h
        cases hr : (f args).run with
        | ok r =>
          obtain ⟨t, r⟩ := r
          rw [hr] at h
          cases r with
          | val a => cases h; exact .prints hf hr
          | exit1 => cases h; exact .exits hf hr
          | thrown => cases h; exact .throws hf hr
        | throw => rw [hr] at h; cases h
        | ub => rw [hr] at h; cases h
        | timeout => rw [hr] at h; cases h

/-- C110: whatever the arguments and the shell, a run that ends has printed nothing because braces could not be replaced, or
has done what a command of the table does for some arguments without braces. -/
theorem C110_only {argv : List CStr} {out : List Char} {st : Int} {n : Nat}
    (h : self (groups e) exe other n argv = ok (out, st)) :
    ((out = [] ∧ st = 0) ∨ ∃ argv' : List CStr, LBRK ∉ argv' ∧ RBRK ∉ argv' ∧ Does (groups e) (argv'.map ofBytes) out st) ∧
      (st = 0 ∨ st = 1) := by
  cases n with
  | zero => cases h
  | succ n =>
    rw [self, program] at h
    cases hi : cmd_interpolate (shell (self (groups e) exe other n) exe other) exe (n + 1) argv with
    | ok r =>
      rw [hi] at h
      have hd := plainMain_does h
      refine ⟨.inr ⟨r, (C72_clean hi).1, (C72_clean hi).2, hd⟩, ?_⟩
      clear hi h
      generalize r.map ofBytes = l at hd
      cases hd with
      | none => exact .inr rfl
      | exits => exact .inr rfl
      | list => exact .inl rfl
      | prints => exact .inl rfl
      | throws => exact .inl rfl
      | unknown => exact .inl rfl
    | throw => rw [hi] at h; cases h; exact ⟨.inl ⟨rfl, rfl⟩, .inl rfl⟩
    | ub => rw [hi] at h; cases h
    | timeout => rw [hi] at h; cases h

/-- C110: braces that do not match: nothing is printed. -/
theorem C110_unbalanced {argv : List CStr} (h : ¬ Bal argv) (hn : (argv.length : Int) ≤ INT_MAX) (n : Nat) :
    self (groups e) exe other (n + 1) argv = ok ([], 0) := by
  rw [self, program, C72_refuses h hn]

/-! ### One command in braces -/

theorem shortLines {out : List Byte} (h : out.length ≤ 4095) : ShortLines out := by
  intro a m b hm _
  have := congrArg List.length hm
  simp only [List.length_append] at this
  omega

/-- C110: one command in braces.  Its output, cut at white space, takes its place; its own exit status and its errors
have no influence. -/
theorem C110_one {pre post g : List CStr} {t o : List Char} {s st : Int} (he : plainWord exe = true)
    (hpre : LBRK ∉ pre ∧ RBRK ∉ pre) (hpost : LBRK ∉ post ∧ RBRK ∉ post) (hg : Runs (groups e) exe g t st)
    (hbal : Bal g) (hf : Fits exe g t)
    (hn : 2 * ((pre ++ outTokens (toBytes t) ++ post).length : Int) + (pre.length + g.length + post.length + 2) ≤ INT_MAX)
    (h : Does (groups e) ((pre ++ outTokens (toBytes t) ++ post).map ofBytes) o s) :
    ∃ N, ∀ n, N ≤ n → self (groups e) exe other n (pre ++ LBRK :: (g ++ RBRK :: post)) = ok (o, s) := by
  let its : List Item := pre.map Item.word ++ Item.group g :: post.map Item.word
  have f1 : ∀ l : List CStr, (l.map Item.word).flatMap Item.flat = l := by
    intro l; induction l with
    | nil => rfl
    | cons a l ih => rw [List.map_cons, List.flatMap_cons, ih]; rfl
  have f2 : ∀ l : List CStr, (l.map Item.word).flatMap (Item.value fun _ => outTokens (toBytes t)) = l := by
    intro l; induction l with
    | nil => rfl
    | cons a l ih => rw [List.map_cons, List.flatMap_cons, ih]; rfl
  have e1 : its.flatMap Item.flat = pre ++ LBRK :: (g ++ RBRK :: post) := by
    show (pre.map Item.word ++ Item.group g :: post.map Item.word).flatMap Item.flat = _
    rw [List.flatMap_append, List.flatMap_cons, f1, f1]
    simp [Item.flat]
  have e2 : its.flatMap (Item.value fun _ => outTokens (toBytes t)) = pre ++ outTokens (toBytes t) ++ post := by
    show (pre.map Item.word ++ Item.group g :: post.map Item.word).flatMap _ = _
    rw [List.flatMap_append, List.flatMap_cons, f2, f2, List.append_assoc]
    rfl
  have hgr : ∀ g', Item.group g' ∈ its → g' = g := by
    intro g' h
    rcases List.mem_append.1 h with h | h
    · obtain ⟨x, _, h⟩ := List.mem_map.1 h; cases h
    · rcases List.mem_cons.1 h with h | h
      · cases h; rfl
      · obtain ⟨x, _, h⟩ := List.mem_map.1 h; cases h
  have hw : ∀ (l : List CStr), LBRK ∉ l ∧ RBRK ∉ l → ∀ i ∈ l.map Item.word, i.Ok := by
    intro l hl i hi
    obtain ⟨x, hx, rfl⟩ := List.mem_map.1 hi
    exact ⟨fun h => hl.1 (h ▸ hx), fun h => hl.2 (h ▸ hx)⟩
  have R : Runs (groups e) exe (its.flatMap Item.flat) o s := by
    refine Runs.braces (out := fun _ => t) (st := fun _ => st) (fun i hi => ?_)
      (fun g' h => hgr g' h ▸ hg) (fun g' h => hgr g' h ▸ hf) ?_ ?_
    · rcases List.mem_append.1 hi with hi | hi
      · exact hw pre hpre i hi
      · rcases List.mem_cons.1 hi with rfl | hi
        · exact hbal
        · exact hw post hpost i hi
    · rw [e1, e2]
      simp only [List.length_append, List.length_cons] at hn ⊢
      push_cast at hn ⊢
      omega
    · rw [e2]; exact h
  rw [e1] at R
  exact C110_braces he R

/-! ### From the command line to mathematics -/

theorem digit_plain {c : Char} (h : isDig c = true) : c.toNat < 256 ∧ plainByte (BitVec.ofNat 8 c.toNat) = true := by
  rw [isDig, decide_eq_true_eq] at h
  have h1 : 48 ≤ c.toNat := h.1
  have h2 : c.toNat ≤ 57 := h.2
  refine ⟨by omega, ?_⟩
  generalize c.toNat = k at *
  interval_cases k <;> rfl

theorem showInt_plain (n : Int) : Bytes (showInt n) ∧ showInt n ≠ [] ∧ (toBytes (showInt n)).all plainByte = true := by
  obtain ⟨-, h2, h3, -⟩ := showNat_spec n.natAbs
  have key : ∀ c ∈ showInt n, c.toNat < 256 ∧ plainByte (BitVec.ofNat 8 c.toNat) = true := by
    intro c hc
    unfold showInt at hc
    split at hc
    · rcases List.mem_cons.1 hc with rfl | hc
      · decide
      · exact digit_plain (h2 c hc)
    · exact digit_plain (h2 c hc)
  refine ⟨fun c hc => (key c hc).1, ?_, ?_⟩
  · unfold showInt
    split
    · simp
    · exact h3
  · rw [List.all_eq_true]
    intro b hb
    obtain ⟨c, hc, rfl⟩ := List.mem_map.1 hb
    exact (key c hc).2

theorem showNat_length : ∀ (k n : Nat), n < 10 ^ (k + 1) → (showNat n).length ≤ k + 1 := by
  intro k
  induction k with
  | zero => intro n h; rw [showNat, if_pos (by simpa using h)]; rfl
  | succ k ih =>
    intro n h
    rw [showNat]
    split
    · simp
    · rw [List.length_append]
      have := ih (n / 10) (by rw [Nat.div_lt_iff_lt_mul (by omega)]; rw [pow_succ] at h; exact h)
      simp only [List.length_singleton]
      omega

theorem showInt_length {n : Int} (h : InInt n) : (showInt n).length ≤ 11 := by
  have := showNat_length 9 n.natAbs (by unfold InInt at h; omega)
  unfold showInt
  split
  · rw [List.length_cons]; omega
  · omega

/-- The tokens of a number on a line of its own. -/
theorem tokens_int (n : Int) : outTokens (toBytes (showInt n ++ ['\n'])) = [toBytes (showInt n)] := by
  obtain ⟨-, h2, h3⟩ := showInt_plain n
  have hs : ∀ c ∈ toBytes (showInt n), decide (c ∈ ([32, 9, 10] : List Byte)) = false := by
    intro c hc
    have := List.all_eq_true.1 h3 c hc
    rw [decide_eq_false_iff_not]
    intro h
    simp only [List.mem_cons, List.not_mem_nil, or_false] at h
    rcases h with rfl | rfl | rfl <;> exact absurd this (by decide)
  unfold outTokens
  rw [show toBytes (showInt n ++ ['\n']) = toBytes (showInt n) ++ 10 :: [] by simp [toBytes],
    toks_append_sep _ _ (by decide), toks_nil, toks, List.splitOnP_eq_singleton hs]
  simp [toBytes, h2]

/-- A number on a line of its own fits. -/
theorem fits_int {g : List CStr} {n : Int} (hn : InInt n) (hg : g.all plainWord = true)
    (hc : ((cmdline exe g).length : Int) + 1 ≤ INT_MAX) : Fits exe g (showInt n ++ ['\n']) := by
  obtain ⟨-, h2, h3⟩ := showInt_plain n
  have hl := showInt_length hn
  have no : ∀ b : Byte, plainByte b = false → b ≠ 10 → b ∉ toBytes (showInt n ++ ['\n']) := by
    intro b hb h10 h
    rw [show toBytes (showInt n ++ ['\n']) = toBytes (showInt n) ++ [10] by simp [toBytes], List.mem_append,
      List.mem_singleton] at h
    rcases h with h | h
    · rw [List.all_eq_true.1 h3 b h] at hb; cases hb
    · exact h10 h
  have clean : ∀ b : Byte, plainByte b = false → [b] ∉ outTokens (toBytes (showInt n ++ ['\n'])) := by
    intro b hb h
    rw [tokens_int, List.mem_singleton] at h
    rw [← h] at h3
    simp [hb] at h3
  refine ⟨hg, no 0 (by decide) (by decide), shortLines ?_, ?_, hc, clean 123 (by decide), clean 125 (by decide)⟩
  · rw [toBytes, List.length_map, List.length_append, List.length_singleton]; omega
  · rw [List.length_append, List.length_singleton]; unfold INT_MAX; omega

/-- An argument that the shell passes on as it is. -/
def Plain (x : List Char) : Prop := Bytes x ∧ x ≠ [] ∧ (toBytes x).all plainByte = true

theorem Plain.word {x : List Char} (h : Plain x) : Word x := by
  refine ⟨h.1, ?_, ?_⟩ <;> · rintro rfl; exact absurd h.2.2 (by decide)

theorem Plain.plainWord {x : List Char} (h : Plain x) : plainWord (toBytes x) = true := by
  unfold Cmd.plainWord
  rw [h.2.2, show (toBytes x).isEmpty = false by cases x with
    | nil => exact absurd rfl h.2.1
    | cons => rfl]
  simp

theorem bal_words {l : List CStr} (h : LBRK ∉ l ∧ RBRK ∉ l) : Bal l := by
  induction l with
  | nil => exact .nil
  | cons a l ih =>
    rw [List.mem_cons, List.mem_cons, not_or, not_or] at h
    exact .word (fun e => h.1.1 e.symm) (fun e => h.2.1 e.symm) (ih ⟨h.1.2, h.2.2⟩)

/-- C110: a command in braces that prints a number.  The number takes its place. -/
theorem C110_number {pre post xs : List (List Char)} {c o : List Char} {m s : Int}
    {f : List (List Char) → Cmd Unit} (he : plainWord exe = true) (hpre : ∀ w ∈ pre, Word w) (hpost : ∀ w ∈ post, Word w)
    (hx : ∀ w ∈ c :: xs, Plain w) (hf : (c, f) ∈ (groups e).flatMap Group.cmds) (hm : InInt m)
    (hp : Prints (f xs) (showInt m ++ ['\n']) ())
    (hc : ((cmdline exe ((c :: xs).map toBytes)).length : Int) + 1 ≤ INT_MAX)
    (hn : 3 * (pre.length + (xs.length : Int) + post.length + 3) ≤ INT_MAX)
    (h : Does (groups e) (pre ++ showInt m :: post) o s) :
    ∃ N, ∀ n, N ≤ n → self (groups e) exe other n
      ((pre ++ "{".toList :: c :: xs ++ "}".toList :: post).map toBytes) = ok (o, s) := by
  have hxw : ∀ w ∈ c :: xs, Word w := fun w hw => (hx w hw).word
  have hd : Does (groups e) (((c :: xs).map toBytes).map ofBytes) (showInt m ++ ['\n']) 0 := by
    rw [map_ofBytes fun w hw => (hx w hw).1]
    exact .prints hf hp
  have := C110_one (e := e) (other := other) (o := o) (s := s) he (words_clean hpre) (words_clean hpost)
    (.plain (words_clean hxw) hd)
    (bal_words (words_clean hxw)) (fits_int hm ?_ hc) ?_ ?_
  · rw [List.map_append, List.map_append, List.append_assoc]
    exact this
  · rw [List.all_eq_true]
    intro b hb
    obtain ⟨w, hw, rfl⟩ := List.mem_map.1 hb
    exact (hx w hw).plainWord
  · rw [tokens_int]
    simp only [List.length_append, List.length_map, List.length_cons, List.length_nil]
    push_cast
    omega
  · rw [tokens_int, List.map_append, List.map_append, map_ofBytes fun w hw => (hpre w hw).1,
      map_ofBytes fun w hw => (hpost w hw).1, List.map_singleton, ofBytes_toBytes (showInt_plain m).1]
    simpa using h

theorem mem_z (e : Env) {x : List Char × (List (List Char) → Cmd Unit)} (h : x ∈ zCmds e) :
    x ∈ (groups e).flatMap Group.cmds := List.mem_flatMap.2 ⟨_, List.mem_cons_self, h⟩

/-- C110, from end to end: `z_gcd x y ...` prints a greatest common divisor, and the status is 0. -/
theorem C110_gcd (x : List Char) (args : List (List Char)) (a : Int) (ns : List Int) (hx : IsInt x a) (h : Ints args ns)
    (hmin : ∀ m ∈ a :: ns, m ≠ INT_MIN) (hw : ∀ w ∈ x :: args, Word w) :
    ∃ g : Int, (∀ d : ℕ, d ∣ g.natAbs ↔ ∀ m ∈ a :: ns, (d : Int) ∣ m) ∧
      ∀ n, self (groups e) exe other (n + 1) (("z_gcd".toList :: x :: args).map toBytes) = ok (showInt g ++ ['\n'], 0) := by
  obtain ⟨g, h1, h2, -⟩ := C100_gcd x args a ns hx h hmin
  refine ⟨g, h2, C110_plain (fun w hw' => ?_) (.prints (f := z_gcd) (mem_z e (List.mem_of_getElem? (i := 1) rfl)) h1)⟩
  rcases List.mem_cons.1 hw' with rfl | hw'
  · refine ⟨?_, by decide, by decide⟩
    unfold Bytes
    decide
  · exact hw w hw'

/-- C110, from end to end with braces: `z_totient { z_gcd x y }` prints the number of units modulo a greatest common
divisor `g ≥ 2`, and 0 if there is no such. -/
theorem C110_totient_gcd (x y : List Char) (a b : Int) (he : plainWord exe = true) (hx : IsInt x a) (hy : IsInt y b)
    (ha : a ≠ INT_MIN) (hb : b ≠ INT_MIN) (hxp : Plain x) (hyp : Plain y)
    (hl : (exe.length + x.length + y.length + 100 : Int) ≤ INT_MAX) :
    ∃ g : Int, (∀ d : ℕ, d ∣ g.natAbs ↔ (d : Int) ∣ a ∧ (d : Int) ∣ b) ∧
      ∃ N, ∀ n, N ≤ n → self (groups e) exe other n
        (["z_totient".toList, "{".toList, "z_gcd".toList, x, y, "}".toList].map toBytes) =
          ok (showNat (if 2 ≤ g then Nat.totient g.toNat else 0) ++ ['\n'], 0) := by
  obtain ⟨g, h1, h2, -⟩ := C100_gcd x [y] a [b] hx (.cons hy .nil) (by
    intro m hm
    simp only [List.mem_cons, List.not_mem_nil, or_false] at hm
    rcases hm with rfl | rfl <;> assumption)
  have h2' : ∀ d : ℕ, d ∣ g.natAbs ↔ (d : Int) ∣ a ∧ (d : Int) ∣ b := by
    intro d; rw [h2 d]; simp
  have hg : InInt g := by
    have hd := (h2' g.natAbs).1 dvd_rfl
    rw [Int.natCast_dvd, Int.natCast_dvd] at hd
    have hai := hx.1
    have hbi := hy.1
    unfold InInt INT_MIN at *
    by_cases h0 : a = 0
    · by_cases h0' : b = 0
      · have := (h2' 0).2 ⟨by simp [h0], by simp [h0']⟩
        have : g.natAbs = 0 := by simpa using this
        omega
      · have := Nat.le_of_dvd (by omega) hd.2
        omega
    · have := Nat.le_of_dvd (by omega) hd.1
      omega
  refine ⟨g, h2', ?_⟩
  have ht := C100_totient [showInt g] [g] (.cons (isInt_show hg) .nil) (by simp)
  have hT : ([g].flatMap (totientLine (1 < [g].length))) = showNat (if 2 ≤ g then Nat.totient g.toNat else 0) ++ ['\n'] := by
    simp [totientLine, lbl]
  rw [hT] at ht
  have hp1 : Word "z_totient".toList := ⟨by unfold Bytes; decide, by decide, by decide⟩
  have hp2 : Plain "z_gcd".toList := ⟨by unfold Bytes; decide, by decide, by decide⟩
  refine C110_number (pre := ["z_totient".toList]) (post := []) (xs := [x, y]) (c := "z_gcd".toList) (f := z_gcd) (m := g)
    he ?_ (by simp) ?_ (mem_z e (List.mem_of_getElem? (i := 1) rfl)) hg h1 ?_ (by simp [INT_MAX])
    (.prints (f := z_totient) (mem_z e (List.mem_of_getElem? (i := 3) rfl)) ht)
  · intro w hw
    rw [List.mem_singleton] at hw
    exact hw ▸ hp1
  · intro w hw
    simp only [List.mem_cons, List.not_mem_nil, or_false] at hw
    rcases hw with rfl | rfl | rfl <;> assumption
  · rw [cmdline_length]
    have e1 : (toBytes "z_gcd".toList).length = 5 := by decide
    have e2 : (toBytes x).length = x.length := by rw [toBytes, List.length_map]
    have e3 : (toBytes y).length = y.length := by rw [toBytes, List.length_map]
    simp only [List.map_cons, List.map_nil, List.sum_cons, List.sum_nil, e1, e2, e3]
    push_cast
    omega

/-! ### What does not hold -/

theorem unknown_does {c : List Char} (args : List (List Char)) (h : c ∉ "-l".toList :: names.map String.toList) :
    Does (groups e) (c :: args) [] 0 := by
  rw [List.mem_cons, not_or, ← names_eq e] at h
  exact .unknown h.1 fun x hx hc => h.2 (List.mem_map.2 ⟨x, hx, hc.symm⟩)

/-- C110: a name that is no command: nothing is printed, but the status is that of success. -/
theorem C110_violated_unknown {c : List Char} {args : List (List Char)} (h : c ∉ "-l".toList :: names.map String.toList)
    (hw : ∀ w ∈ c :: args, Word w) (n : Nat) :
    self (groups e) exe other (n + 1) ((c :: args).map toBytes) = ok ([], 0) := C110_plain hw (unknown_does args h) n

/-- The command that `nth_prime_usage` calls `nth_prime` (`/repo/cli/spiff/z_handlers.cpp`) has neither this name nor one
like those of its neighbours. -/
theorem C110_violated_nth_prime : "nth_prime".toList ∉ "-l".toList :: names.map String.toList ∧
    "z_nth_prime".toList ∉ "-l".toList :: names.map String.toList ∧
    "spffl::intmath::nth_prime".toList ∈ names.map String.toList := by
  refine ⟨?_, ?_, ?_⟩ <;> decide +kernel

/-- C110: a name in braces that is no command vanishes with its arguments: the program goes on as if there were nothing,
whatever `pre` and `post` are. -/
theorem C110_violated_inner {pre post xs : List (List Char)} {c o : List Char} {s : Int} (he : plainWord exe = true)
    (hpre : ∀ w ∈ pre, Word w) (hpost : ∀ w ∈ post, Word w) (hx : ∀ w ∈ c :: xs, Plain w)
    (hc : c ∉ "-l".toList :: names.map String.toList)
    (hl : ((cmdline exe ((c :: xs).map toBytes)).length : Int) + 1 ≤ INT_MAX)
    (hn : 3 * (pre.length + (xs.length : Int) + post.length + 3) ≤ INT_MAX) (h : Does (groups e) (pre ++ post) o s) :
    ∃ N, ∀ n, N ≤ n → self (groups e) exe other n
      ((pre ++ "{".toList :: c :: xs ++ "}".toList :: post).map toBytes) = ok (o, s) := by
  have hxw : ∀ w ∈ c :: xs, Word w := fun w hw => (hx w hw).word
  have hd : Does (groups e) (((c :: xs).map toBytes).map ofBytes) [] 0 := by
    rw [map_ofBytes fun w hw => (hx w hw).1]
    exact unknown_does xs hc
  have t0 : outTokens (toBytes []) = [] := by decide +kernel
  have := C110_one (e := e) (other := other) (o := o) (s := s) he (words_clean hpre) (words_clean hpost)
    (.plain (words_clean hxw) hd) (bal_words (words_clean hxw))
    ⟨?_, by decide, shortLines (by decide), by decide, hl, by rw [t0]; decide⟩ ?_ ?_
  · rw [List.map_append, List.map_append, List.append_assoc]
    exact this
  · rw [List.all_eq_true]
    intro b hb
    obtain ⟨w, hw, rfl⟩ := List.mem_map.1 hb
    exact (hx w hw).plainWord
  · rw [t0]
    simp only [List.length_append, List.length_map, List.length_cons, List.length_nil]
    push_cast
    omega
  · rw [t0, List.append_nil, List.map_append, map_ofBytes fun w hw => (hpre w hw).1,
      map_ofBytes fun w hw => (hpost w hw).1]
    exact h

/-- A misspelt command in braces: `z_gcd 12 { z_gdc 18 30 }` prints 12. -/
example : ∃ N, ∀ n, N ≤ n → self (groups e) (toBytes "spiff".toList) other n
    (["z_gcd".toList, "12".toList, "{".toList, "z_gdc".toList, "18".toList, "30".toList, "}".toList].map toBytes) =
      ok ("12\n".toList, 0) := by
  refine C110_violated_inner (pre := ["z_gcd".toList, "12".toList]) (post := []) (xs := ["18".toList, "30".toList])
    (c := "z_gdc".toList) (by decide) ?_ (by simp) ?_ (by decide +kernel) (by decide +kernel) (by decide)
    (.prints (f := z_gcd) (mem_z e (List.mem_of_getElem? (i := 1) rfl)) (by show _ = _; decide +kernel))
  · unfold Word Bytes; decide
  · unfold Plain Bytes; decide

/-- C110: what a command in braces printed before an exception is used: `z_gcd { spffl::intmath::nth_prime 6542-6543 } 12`. -/
theorem C110_violated_error : ∃ N, ∀ n, N ≤ n → self (groups e) (toBytes "spiff".toList) other n
    (["z_gcd".toList, "{".toList, "spffl::intmath::nth_prime".toList, "6542-6543".toList, "}".toList, "131042".toList].map
      toBytes) = ok ("65521\n".toList, 0) := by
  have h1 : ThrowsC (nth_prime_cmd ["6542-6543".toList]) "65521\n".toList := by show _ = _; decide +kernel
  have h2 : Prints (z_gcd ["65521".toList, "131042".toList]) "65521\n".toList () := by show _ = _; decide +kernel
  have t0 : outTokens (toBytes "65521\n".toList) = [toBytes "65521".toList] := by decide +kernel
  refine C110_one (pre := ["z_gcd".toList].map toBytes) (post := ["131042".toList].map toBytes)
    (g := ["spffl::intmath::nth_prime".toList, "6542-6543".toList].map toBytes) (t := "65521\n".toList) (st := 0)
    (by decide) (by decide) (by decide) (.plain (by decide)
      (.throws (f := nth_prime_cmd) (mem_z e (List.mem_of_getElem? (i := 5) rfl)) h1)) (bal_words (by decide))
    ⟨by decide, by decide, shortLines (by decide), by decide, by decide, by rw [t0]; decide⟩ (by rw [t0]; decide) ?_
  rw [t0]
  exact .prints (f := z_gcd) (mem_z e (List.mem_of_getElem? (i := 1) rfl)) h2

/-- C110: commands in braces are read by the shell.  If it prints nothing for the syntax error that a parenthesis is,
then `z_gcd 12 { z_op ( 8 + 10 ) }` prints 12. -/
theorem C110_violated_shell (n : Nat)
    (hs : other (cmdline (toBytes "spiff".toList) (["z_op", "(", "8", "+", "10", ")"].map fun s => toBytes s.toList)) = some []) :
    self (groups e) (toBytes "spiff".toList) other (n + 2)
      ((["z_gcd", "12", "{", "z_op", "(", "8", "+", "10", ")", "}"]).map fun s => toBytes s.toList) = ok ("12\n".toList, 0) ∧
    (z_op ["(".toList, "8".toList, "+".toList, "10".toList, ")".toList]).run = ok ("18\n".toList, .val ()) := by
  refine ⟨?_, by decide +kernel⟩
  have t0 : outTokens [] = [] := by decide +kernel
  have hsh : ∀ run, shell run (toBytes "spiff".toList) other
      (cmdline (toBytes "spiff".toList) (["z_op", "(", "8", "+", "10", ")"].map fun s => toBytes s.toList)) = some [] := by
    intro run
    have hw : shWords (cmdline (toBytes "spiff".toList) (["z_op", "(", "8", "+", "10", ")"].map fun s => toBytes s.toList)) =
        toBytes "spiff".toList :: (["z_op", "(", "8", "+", "10", ")"].map fun s => toBytes s.toList) := by decide +kernel
    unfold shell
    rw [hw]
    simp only
    rw [if_neg (by decide +kernel), hs]
  have hi := C72_interpolate_partial (popen := shell (self (groups e) (toBytes "spiff".toList) other (n + 1))
      (toBytes "spiff".toList) other) (exe := toBytes "spiff".toList) (out := fun _ => [])
    (its := [.word (toBytes "z_gcd".toList), .word (toBytes "12".toList),
      .group (["z_op", "(", "8", "+", "10", ")"].map fun s => toBytes s.toList)]) (k := n + 2) ?_ ?_
    (by rw [t0]; decide) (by simp [Item.groups])
  · rw [t0] at hi
    rw [self, program]
    have hi' : cmd_interpolate (shell (self (groups e) (toBytes "spiff".toList) other (n + 1))
        (toBytes "spiff".toList) other) (toBytes "spiff".toList) (n + 1 + 1)
        ((["z_gcd", "12", "{", "z_op", "(", "8", "+", "10", ")", "}"]).map fun s => toBytes s.toList) =
          ok (["z_gcd".toList, "12".toList].map toBytes) := hi
    rw [hi']
    exact does_plainMain (.prints (f := z_gcd) (mem_z e (List.mem_of_getElem? (i := 1) rfl)) (by show _ = _; decide +kernel))
  · intro i hi
    simp only [List.mem_cons, List.not_mem_nil, or_false] at hi
    rcases hi with rfl | rfl | rfl
    · exact ⟨by decide, by decide⟩
    · exact ⟨by decide, by decide⟩
    · exact bal_words (by decide)
  · intro g hg
    simp only [List.mem_cons, List.not_mem_nil, or_false, reduceCtorEq, false_or, Item.group.injEq] at hg
    subst hg
    exact ⟨hsh _, by decide, shortLines (by decide), by decide, by decide, by rw [t0]; decide, by rw [t0]; decide⟩

/-- Braces in braces, for any `Env` and any shell: `z_gcd { z_lcm 4 { z_gcd 18 12 } } 9`. -/
example : ∃ N, ∀ n, N ≤ n → self (groups e) (toBytes "spiff".toList) other n
    ((["z_gcd", "{", "z_lcm", "4", "{", "z_gcd", "18", "12", "}", "}", "9"]).map fun s => toBytes s.toList) =
      ok ("3\n".toList, 0) := by
  have t1 : outTokens (toBytes "6\n".toList) = [toBytes "6".toList] := by decide +kernel
  have t2 : outTokens (toBytes "12\n".toList) = [toBytes "12".toList] := by decide +kernel
  have inner : Runs (groups e) (toBytes "spiff".toList) (["z_gcd", "18", "12"].map fun s => toBytes s.toList)
      "6\n".toList 0 := .plain (by decide)
    (.prints (f := z_gcd) (mem_z e (List.mem_of_getElem? (i := 1) rfl)) (by show _ = _; decide +kernel))
  have mid : Runs (groups e) (toBytes "spiff".toList)
      (["z_lcm", "4", "{", "z_gcd", "18", "12", "}"].map fun s => toBytes s.toList) "12\n".toList 0 := by
    refine Runs.braces (its := [.word (toBytes "z_lcm".toList), .word (toBytes "4".toList),
      .group (["z_gcd", "18", "12"].map fun s => toBytes s.toList)]) (out := fun _ => "6\n".toList) (st := fun _ => 0)
      ?_ ?_ ?_ (by rw [t1]; decide) ?_
    · intro i hi
      simp only [List.mem_cons, List.not_mem_nil, or_false] at hi
      rcases hi with rfl | rfl | rfl
      · exact ⟨by decide, by decide⟩
      · exact ⟨by decide, by decide⟩
      · exact bal_words (by decide)
    · intro g hg
      simp only [List.mem_cons, List.not_mem_nil, or_false, reduceCtorEq, false_or, Item.group.injEq] at hg
      exact hg ▸ inner
    · intro g hg
      simp only [List.mem_cons, List.not_mem_nil, or_false, reduceCtorEq, false_or, Item.group.injEq] at hg
      subst hg
      exact ⟨by decide, by decide, shortLines (by decide), by decide, by decide, by rw [t1]; decide⟩
    · rw [t1]
      exact .prints (f := z_lcm) (mem_z e (List.mem_of_getElem? (i := 2) rfl)) (by show _ = _; decide +kernel)
  refine C110_one (pre := ["z_gcd".toList].map toBytes) (post := ["9".toList].map toBytes)
    (by decide) (by decide) (by decide) mid ?_
    ⟨by decide, by decide, shortLines (by decide), by decide, by decide, by rw [t2]; decide⟩ (by rw [t2]; decide) ?_
  · have hb : Bal (LBRK :: ((["z_gcd", "18", "12"].map fun s : String => toBytes s.toList) ++ RBRK :: [])) :=
      .group (bal_words (by decide)) .nil
    exact .word (by decide) (by decide) (.word (by decide) (by decide) hb)
  · rw [t2]
    exact .prints (f := z_gcd) (mem_z e (List.mem_of_getElem? (i := 1) rfl)) (by show _ = _; decide +kernel)

set_option maxRecDepth 10000 in
/-- C110: `-l` prints the headings and the names, whatever follows it. -/
theorem C110_list (n : Nat) (args : List (List Char)) (hw : ∀ w ∈ args, Word w) :
    self (groups e) exe other (n + 1) (("-l".toList :: args).map toBytes) =
      ok (headings.flatMap fun h => h.1.toList ++ ":\n".toList ++
        h.2.flatMap fun c => "  ".toList ++ c.toList ++ "\n".toList, 0) := by
  have hl : ∀ w ∈ "-l".toList :: args, Word w := by
    intro w h
    rcases List.mem_cons.1 h with rfl | h
    · refine ⟨?_, by decide, by decide⟩
      unfold Bytes
      decide
    · exact hw w h
  rw [C110_plain hl .list n]
  rfl

/-- No argument, an empty pair of braces, a lone brace. -/
example (n : Nat) : self (groups e) exe other (n + 1) [] = ok ([], 1) ∧
    self (groups e) exe other (n + 1) [RBRK] = ok ([], 0) :=
  ⟨C110_plain (argv := []) (by simp) .none n, C110_unbalanced (fun h => by cases h with
    | word _ h2 _ => exact h2 rfl) (by decide) n⟩

end Spffl.Props.Cmd110
