import Verif.Model.Program
import Verif.Proof.Cmd
import Verif.Proof.Text

/-!
# The whole program: the search for a command, the shell and nested braces
-/

namespace Spffl.Cmd
open Res

/-! ### The search -/

theorem dispatch_none {c : List Char} {args : List (List Char)} : ∀ {T : Table}, c ∉ T.map Prod.fst → dispatch T c args = none := by
  intro T
  induction T with
  | nil => intro _; rfl
  | cons x T ih =>
    intro h
    rw [List.map_cons, List.mem_cons, not_or] at h
    show (if c = x.1 then _ else _) = _
    rw [if_neg h.1]
    exact ih h.2

theorem dispatch_some {c : List Char} {args : List (List Char)} {f : List (List Char) → Cmd Unit} :
    ∀ {T : Table}, (T.map Prod.fst).Nodup → (c, f) ∈ T → dispatch T c args = some (f args) := by
  intro T
  induction T with
  | nil => intro _ h; simp at h
  | cons x T ih =>
    intro hd h
    rw [List.map_cons, List.nodup_cons] at hd
    show (if c = x.1 then some (x.2 args) else _) = _
    rcases List.mem_cons.1 h with rfl | h
    · rw [if_pos rfl]
    · rw [if_neg]
      · exact ih hd.2 h
      · rintro rfl
        exact hd.1 (List.mem_map.2 ⟨_, h, rfl⟩)

theorem dispatch_mem {c : List Char} {args : List (List Char)} {x : Cmd Unit} : ∀ {T : Table}, dispatch T c args = some x →
    ∃ f, (c, f) ∈ T ∧ x = f args := by
  intro T
  induction T with
  | nil => intro h; cases h
  | cons y T ih =>
    intro h
    have h' : (if c = y.1 then some (y.2 args) else dispatch T c args) = some x := h
    by_cases hc : c = y.1
    · rw [if_pos hc] at h'
      cases h'
      exact ⟨y.2, by rw [hc]; exact List.mem_cons_self, rfl⟩
    · rw [if_neg hc] at h'
      obtain ⟨f, h1, h2⟩ := ih h'
      exact ⟨f, List.mem_cons_of_mem _ h1, h2⟩

theorem find_eq (c : List Char) (args : List (List Char)) : ∀ G : List Group,
    find G c args = dispatch (G.flatMap Group.cmds) c args := by
  have key : ∀ T S : Table, dispatch (T ++ S) c args = match dispatch T c args with
      | some x => some x
      | none => dispatch S c args := by
    intro T S
    induction T with
    | nil => rfl
    | cons x T ih =>
      show (if c = x.1 then _ else _) = match (if c = x.1 then _ else _) with
        | some x => some x
        | none => dispatch S c args
      by_cases h : c = x.1
      · rw [if_pos h, if_pos h]
      · rw [if_neg h, if_neg h]; exact ih
  intro G
  induction G with
  | nil => rfl
  | cons g G ih =>
    rw [List.flatMap_cons, key, ← ih]
    rfl

theorem listing_eq (G : List Group) : listing G = G.flatMap fun g => g.title ++ ":\n".toList ++
    g.cmds.flatMap fun c => "  ".toList ++ c.1 ++ "\n".toList := by
  induction G with
  | nil => rfl
  | cons g G ih => rw [listing, List.flatMap_cons, ih]

/-! ### Bytes -/

/-- All characters fit into a byte. -/
def Bytes (l : List Char) : Prop := ∀ c ∈ l, c.toNat < 256

theorem ofBytes_toBytes {l : List Char} (h : Bytes l) : ofBytes (toBytes l) = l := by
  unfold ofBytes toBytes
  rw [List.map_map]
  conv_rhs => rw [← List.map_id l]
  refine List.map_congr_left fun c hc => ?_
  have := h c hc
  rw [Function.comp_apply, BitVec.toNat_ofNat, Nat.mod_eq_of_lt (by simpa using this), Char.ofNat_toNat]
  rfl

theorem map_ofBytes {l : List (List Char)} (h : ∀ w ∈ l, Bytes w) : (l.map toBytes).map ofBytes = l := by
  rw [List.map_map]
  conv_rhs => rw [← List.map_id l]
  exact List.map_congr_left fun w hw => ofBytes_toBytes (h w hw)

/-! ### The shell -/

theorem plain_sep {w : CStr} (h : plainWord w = true) : w ≠ [] ∧ ∀ c ∈ w, (c == (32 : Byte)) = false := by
  unfold plainWord at h
  rw [Bool.or_eq_true, Bool.or_eq_true, beq_iff_eq, beq_iff_eq, Bool.and_eq_true, List.all_eq_true] at h
  rcases h with (rfl | rfl) | ⟨h1, h2⟩
  · decide
  · decide
  · refine ⟨by rintro rfl; simp at h1, fun c hc => ?_⟩
    have := h2 c hc
    cases e : c == (32 : Byte)
    · rfl
    · rw [beq_iff_eq] at e
      subst e
      revert this
      decide

theorem shWords_eq (cmd : CStr) : shWords cmd = toks (· == 32) cmd := by
  unfold shWords toks
  congr 1
  funext l
  cases l <;> rfl

theorem shWords_cmdline : ∀ (args : List CStr) (e : CStr), plainWord e = true → args.all plainWord = true →
    shWords (cmdline e args) = e :: args := by
  have one : ∀ w, plainWord w = true → toks (· == (32 : Byte)) w = [w] := by
    intro w h
    obtain ⟨h1, h2⟩ := plain_sep h
    rw [toks, List.splitOnP_eq_singleton h2]
    simp [h1]
  intro args
  induction args with
  | nil =>
    intro e he _
    rw [shWords_eq, cmdline, List.flatMap_nil, List.append_nil, one e he]
  | cons a l ih =>
    intro e he hl
    rw [List.all_cons, Bool.and_eq_true] at hl
    have : cmdline e (a :: l) = e ++ 32 :: cmdline a l := by simp [cmdline]
    rw [this, shWords_eq, toks_append_sep _ _ (by rfl), one e he, ← shWords_eq, ih a hl.1 hl.2]
    rfl

variable {run : List CStr → Res (List Char × Int)} {exe : CStr} {other : CStr → Option (List Byte)}

theorem shell_ok {args : List CStr} {out : List Char} {st : Int} (he : plainWord exe = true)
    (ha : args.all plainWord = true) (h : run args = ok (out, st)) :
    shell run exe other (cmdline exe args) = some (toBytes out) := by
  unfold shell
  rw [shWords_cmdline args exe he ha]
  simp only [ha, and_self, if_true, h]

end Spffl.Cmd
