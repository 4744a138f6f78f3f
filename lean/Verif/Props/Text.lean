/-
Properties C69 (tokenizer), C72 (brackets of command interpolation) and C74 (stack).

`toks p s` is `s.splitOnP p` (Lean core) without its empty pieces: the maximal non-empty stretches of `s` free of
separators, in order.  `cstrAt buf i` is the C string starting at offset `i`.
-/
import Verif.Proof.Text
import Verif.Proof.Stack

namespace Spffl.Props
open Res
namespace Text

/-! ### C69 -/

variable {s q r rest : List Byte}

/-- C69: on a line `s` ended by a zero byte, with separators `q`, the result is the number of tokens, cut off at
`max`; the first so many pointers lead to these tokens as C strings in the line as it is left; the pointers after them,
and everything from the end of the line on, are untouched. -/
theorem C69_tokenize (hs : (0 : Byte) ∉ s) (hq : (0 : Byte) ∉ q) {v : List Nat} {max : Int}
    (hv : ((toks (· ∈ q) s).take max.toNat).length ≤ v.length) (hn : (s.length : Int) ≤ INT_MAX) :
    (Tok.tokenize (s ++ 0 :: rest) (q ++ 0 :: r) v max).Ok fun x =>
      x.1 = min max.toNat (toks (· ∈ q) s).length ∧
      (x.2.1.take x.1.toNat).map (cstrAt x.2.2) = (toks (· ∈ q) s).take max.toNat ∧
      x.2.1.drop x.1.toNat = v.drop x.1.toNat ∧ x.2.1.length = v.length ∧
      x.2.2.drop s.length = 0 :: rest ∧ x.2.2.length = (s ++ 0 :: rest).length := by
  have hle := toks_length_le (p := (· ∈ q)) s
  have hn' : (((toks (· ∈ q) s).take max.toNat).length : Int) ≤ 2147483647 := by
    rw [List.length_take]; unfold INT_MAX at hn; omega
  refine (Tok.tokenize_ok hs hq hv hn').mono ?_
  rintro x ⟨s', offs, e1, e2, e3, e4, e5⟩
  have hl : offs.length = min max.toNat (toks (· ∈ q) s).length := by
    rw [← List.length_take, ← e3, List.length_map]
  have hx : x.1.toNat = offs.length := by rw [e5, Int.toNat_natCast]
  refine ⟨by rw [e5, hl], ?_, ?_, ?_, ?_, ?_⟩
  · rw [hx, e4, List.take_left, e3]
  · rw [hx, e4, List.drop_left]
  · rw [e4, List.length_append, List.length_drop]
    rw [List.length_take] at hv
    omega
  · rw [e1, ← e2, List.drop_left]
  · rw [e1]; simp [e2]

/-- C69: `count_tokens` is the number of tokens. -/
theorem C69_count (hs : (0 : Byte) ∉ s) (hq : (0 : Byte) ∉ q) (hn : (s.length : Int) ≤ INT_MAX) :
    Tok.count_tokens (s ++ 0 :: rest) (q ++ 0 :: r) = ok ((toks (· ∈ q) s).length : Int) :=
  Tok.count_tokens_ok hs hq (by
    have := toks_length_le (p := (· ∈ q)) s
    unfold INT_MAX at hn; omega)

/-- What the tokens are: non-empty, free of separators, and the line is the tokens with runs of separators between them. -/
theorem C69_tokens (s : List Byte) : (∀ t ∈ toks (· ∈ q) s, t ≠ [] ∧ ∀ c ∈ t, c ∉ q) ∧
    (toks (· ∈ q) s).flatten = s.filter (· ∉ q) := by
  have key : ∀ s : List Byte, (∀ t ∈ s.splitOnP (· ∈ q), ∀ c ∈ t, c ∉ q) ∧
      (s.splitOnP (· ∈ q)).flatten = s.filter (· ∉ q) := by
    intro s
    induction s with
    | nil => simp
    | cons c s ih =>
      by_cases hc : c ∈ q
      · rw [splitOnP_cons_sep (by simpa using hc)]
        refine ⟨fun t ht => ?_, ?_⟩
        · rcases List.mem_cons.1 ht with rfl | ht
          · simp
          · exact ih.1 t ht
        · rw [List.flatten_cons, List.nil_append, ih.2, List.filter_cons_of_neg (by simpa using hc)]
      · obtain ⟨hd, tl, e1, e2⟩ := splitOnP_cons_ne (p := (· ∈ q)) (b := s) (by simpa using hc)
        rw [e1] at ih
        rw [e2]
        refine ⟨fun t ht => ?_, ?_⟩
        · rcases List.mem_cons.1 ht with rfl | ht
          · intro x hx
            rcases List.mem_cons.1 hx with rfl | hx
            · exact hc
            · exact ih.1 hd List.mem_cons_self x hx
          · exact ih.1 t (List.mem_cons_of_mem _ ht)
        · rw [List.filter_cons_of_pos (by simpa using hc), ← ih.2]; rfl
  refine ⟨fun t ht => ?_, ?_⟩
  · rw [toks, List.mem_filter] at ht
    exact ⟨by simpa using ht.2, (key s).1 t ht.1⟩
  · rw [← (key s).2, toks]
    generalize s.splitOnP (· ∈ q) = L
    induction L with
    | nil => rfl
    | cons a L ih =>
      cases a with
      | nil => simpa using ih
      | cons c a => simp at ih ⊢; exact ih

/-- " ab  c\tdef" with separators " \t" and room for two pointers: two tokens; the line is cut after them. -/
example : Tok.tokenize [32, 97, 98, 32, 32, 99, 9, 100, 101, 102, 0, 7] [32, 9, 0] [70, 71, 72] 2
    = ok (2, [1, 5, 72], [32, 97, 98, 0, 32, 99, 0, 0, 101, 102, 0, 7]) := by decide +kernel

example : Tok.count_tokens [32, 97, 98, 32, 32, 99, 9, 100, 101, 102, 0] [32, 9, 0] = ok 3 := by decide +kernel

/-! ### C72

An argument list is a list of byte strings; the brackets are the arguments `{` and `}`.  `Bal` is the grammar of
balanced lists.  `popen` gives the output of each command line. -/

open Cmd

variable {popen : CStr → Option (List Byte)} {exe : CStr}

/-- C72: the balance check accepts exactly the balanced lists. -/
theorem C72_balance (argv : List CStr) (hn : (argv.length : Int) ≤ INT_MAX) :
    (check_balance argv 0).Ok fun b => b = true ↔ Bal argv := by
  have := check_ok argv 0 (by unfold INT_MAX at hn; simpa using hn)
  rw [show ((0 : Nat) : Int) = 0 from rfl] at this
  rw [this, Ok_ok]
  exact bal_iff

/-- C72: the right bracket found for a left bracket is the one matching it. -/
theorem C72_match {g r : List CStr} (hg : Bal g) (i : Nat) (hm : (g.length : Int) + 1 ≤ INT_MAX) :
    find_matching_right_bracket (g ++ RBRK :: r) i 1 = ok (i + g.length) :=
  match_ok hg i (by unfold INT_MAX at hm; exact hm)

/-- C72: unbalanced argument lists are refused, by the loop as well, whatever the commands would print. -/
theorem C72_refuses {argv : List CStr} (h : ¬ Bal argv) (hn : (argv.length : Int) ≤ INT_MAX) (k : Nat) :
    cmd_interpolate popen exe (k + 1) argv = throw := by
  rw [cmd_interpolate, once_throw h (by unfold INT_MAX at hn; exact hn), throw_bind]

/-- C72: whatever the commands print, a normal end leaves no bracket. -/
theorem C72_clean {k : Nat} {argv r : List CStr} (h : cmd_interpolate popen exe k argv = ok r) :
    LBRK ∉ r ∧ RBRK ∉ r := interpolate_clean k argv r h

/-- The tokens of a command's output: cut at spaces, tabs and newlines. -/
def outTokens (out : List Byte) : List CStr := toks (· ∈ ([32, 9, 10] : List Byte)) out

/-- C72: one command.  The tokens of its output, provided that output has no zero byte and no stretch of more than 4095
bytes without a newline (`C72_violated_long`). -/
theorem C72_command_partial {g : List CStr} {out : List Byte} (hcmd : ((cmdline exe g).length : Int) + 1 ≤ INT_MAX)
    (hp : popen (cmdline exe g) = some out) (h0 : (0 : Byte) ∉ out) (hs : ShortLines out)
    (hlen : 3 * (out.length : Int) ≤ INT_MAX) : replace popen exe g = ok (outTokens out) :=
  replace_ok (by unfold INT_MAX at hcmd; exact hcmd) hp h0 hs (by unfold INT_MAX at hlen; exact hlen)

/-- C72: a list of words and bracketed groups (every balanced list is one, `C72_items`).  If the output of each group
has no bracket among its tokens, then every group is replaced by the tokens of its output, the words and the order are
kept, and one round per group and one more suffice. -/
theorem C72_interpolate_partial {its : List Item} {out : List CStr → List Byte} (hi : ∀ i ∈ its, i.Ok)
    (hg : ∀ g, Item.group g ∈ its → popen (cmdline exe g) = some (out g) ∧ (0 : Byte) ∉ out g ∧
      ShortLines (out g) ∧ 3 * ((out g).length : Int) ≤ INT_MAX ∧ ((cmdline exe g).length : Int) + 1 ≤ INT_MAX ∧
      LBRK ∉ outTokens (out g) ∧ RBRK ∉ outTokens (out g))
    (hn : 2 * ((its.flatMap (Item.value fun g => outTokens (out g))).length : Int) + (its.flatMap Item.flat).length ≤ INT_MAX)
    {k : Nat} (hk : (its.map Item.groups).sum < k) :
    cmd_interpolate popen exe k (its.flatMap Item.flat) = ok (its.flatMap (Item.value fun g => outTokens (out g))) := by
  have := interpolate_items (popen := popen) (e := exe) (fun g => outTokens (out g)) its [] k hk (by simp) (by simp) hi
    (fun g hgi => by
      obtain ⟨h1, h2, h3, h4, h5, h6, h7⟩ := hg g hgi
      exact ⟨C72_command_partial h5 h1 h2 h3 h4, h6, h7⟩)
    (by unfold INT_MAX at hn; simpa using hn)
  simpa using this

theorem C72_items (argv : List CStr) :
    Bal argv ↔ ∃ its : List Item, (∀ i ∈ its, i.Ok) ∧ its.flatMap Item.flat = argv :=
  ⟨items_of_bal, by rintro ⟨its, h, rfl⟩; exact bal_items its h⟩

/-- C72 does not hold for outputs with long lines: a single token of `4095 + m` bytes becomes two. -/
theorem C72_violated_long {g : List CStr} {c : Byte} (hc : c ≠ 0 ∧ c ≠ 9 ∧ c ≠ 10 ∧ c ≠ 32) {m : Nat} (hm : 0 < m)
    (hm' : m ≤ 4095) (hcmd : ((cmdline exe g).length : Int) + 1 ≤ INT_MAX)
    (hp : popen (cmdline exe g) = some (List.replicate (4095 + m) c)) :
    replace popen exe g = ok [List.replicate 4095 c, List.replicate m c] ∧
      outTokens (List.replicate (4095 + m) c) = [List.replicate (4095 + m) c] :=
  replace_long hc hm hm' (by unfold INT_MAX at hcmd; exact hcmd) hp

/-- C72 does not promise termination: a command that prints its own bracketed form keeps the loop going for ever.  Here
the executable is `a`, the argument list `{ b }`, and `a b` prints `{ b }`. -/
theorem C72_violated_forever (k : Nat) :
    cmd_interpolate (fun _ => some [123, 32, 98, 32, 125, 10]) [97] k [LBRK, [98], RBRK] = timeout := by
  refine interpolate_forever (g := [[98]]) (.word (by decide) (by decide) .nil) (by decide) ?_ k
  rw [C72_command_partial (out := [123, 32, 98, 32, 125, 10]) (by decide) rfl (by decide) ?_ (by decide)]
  · decide +kernel
  · intro a m b h _
    have := congrArg List.length h
    simp at this; omega

/-- "x { p { q } } y" with a shell that answers "p { q }" by "7 8": the result is "x 7 8 y". -/
example : cmd_interpolate (fun c => if c = [101, 32, 112, 32, 123, 32, 113, 32, 125] then some [55, 32, 56, 10] else none)
    [101] 2 [[120], LBRK, [112], LBRK, [113], RBRK, RBRK, [121]] = ok [[120], [55], [56], [121]] := by decide +kernel

example : cmd_interpolate (fun _ => none) [101] 2 [LBRK, RBRK, RBRK] = throw := by decide +kernel

end Text

/-! ### C74 -/

namespace Stacks
open Stack

variable {α : Type}

/-- C74: any program that creates, copies, pushes to, pops from and destroys stacks (any number of them, each used only
while it exists) runs without undefined behaviour, and its pops yield what they yield on lists: last in, first out, no
result exactly on an empty stack, and no stack is affected by operations on another one, copies included.
`srun` is the program on lists. -/
theorem C74_lifo (z : α) (ops : List (Op α)) (hn : (ops.length : Int) + 10 ≤ INT_MAX)
    {S : List (Option (List α))} {outs : List (Option α)} (h : srun ops [] = some (S, outs)) :
    (run z ops ⟨[], []⟩).Ok fun x => x.2 = outs :=
  (run_ok ops inv_empty (by unfold INT_MAX at hn; omega) h).mono fun _ hx => hx.2

/-- C74 does not extend to self-assignment: the elements are replaced by default-constructed ones.  (Besides, the
operator has no `return`, which is undefined behaviour for every use.) -/
theorem C74_violated_self_assign (z : α) {h : Heap α} {P : Nat} {s : Stk} {l : List α} (g : Good h P s l) :
    (assignBody z h s s true).Ok fun r => Good r.1 P r.2 (List.replicate l.length z) := self_assign g

/-- Twelve pushes (beyond the initial ten), a copy, pops from both, the copy destroyed. -/
example : (match run 0 ([.create] ++ ((List.range 12).map fun i => .push 0 (i + 1)) ++
      [.copy 0, .pop 0, .push 0 99, .pop 1, .pop 0, .pop 1, .destroy 1, .pop 0, .create, .pop 2]) ⟨[], []⟩ with
    | ok x => decide (x.2 = [some 12, some 12, some 99, some 11, some 11, none])
    | _ => false) = true := by decide +kernel

end Stacks
end Spffl.Props
