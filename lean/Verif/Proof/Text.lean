/-
Proofs about the tokenizer and command interpolation.
-/
import Verif.Model.Text
import Mathlib.Data.List.Basic
import Mathlib.Data.List.TakeWhile

namespace Spffl
open Res

/-- The maximal non-empty stretches of `s` free of separators. -/
def toks (p : Byte → Bool) (s : List Byte) : List (List Byte) := (s.splitOnP p).filter (· ≠ [])

/-- The C string at an offset. -/
abbrev cstrAt (buf : List Byte) (off : Nat) : List Byte := (buf.drop off).takeWhile (· ≠ 0)

section toks
variable {p : Byte → Bool}

theorem toks_nil : toks p [] = [] := by simp [toks]

theorem toks_append_sep (a b : List Byte) {c : Byte} (h : p c = true) :
    toks p (a ++ c :: b) = toks p a ++ toks p b := by
  simp only [toks]
  rw [List.splitOnP_append_cons _ _ h, List.filter_append]

theorem toks_cons_sep (b : List Byte) {c : Byte} (h : p c = true) : toks p (c :: b) = toks p b := by
  simpa [toks_nil] using toks_append_sep [] b h

theorem splitOnP_cons_ne {c : Byte} {b : List Byte} (h : p c = false) :
    ∃ hd tl, b.splitOnP p = hd :: tl ∧ (c :: b).splitOnP p = (c :: hd) :: tl := by
  obtain ⟨hd, tl, e⟩ := List.exists_cons_of_ne_nil (List.splitOnP_ne_nil p b)
  refine ⟨hd, tl, e, ?_⟩
  rw [List.splitOnP_cons, e]; simp [h]

theorem splitOnP_cons_sep {c : Byte} {b : List Byte} (h : p c = true) :
    (c :: b).splitOnP p = [] :: b.splitOnP p := by
  rw [List.splitOnP_cons]; simp [h]

theorem toks_length_le (s : List Byte) : (toks p s).length ≤ s.length := by
  have aux : ∀ s : List Byte, ((s.splitOnP p).filter (· ≠ [])).length ≤ s.length ∧
      ((s.splitOnP p).tail.filter (· ≠ [])).length ≤ s.length := by
    intro s
    induction s with
    | nil => simp
    | cons c b ih =>
      cases h : p c with
      | true => rw [splitOnP_cons_sep h]; simp at ih ⊢; omega
      | false =>
        obtain ⟨hd, tl, e1, e2⟩ := splitOnP_cons_ne (b := b) h
        rw [e2]; rw [e1] at ih; simp at ih ⊢; omega
  exact (aux s).1

end toks

namespace Tok

theorem sepLoop_ok (c : Byte) (r : List Byte) : ∀ (q pre : List Byte) (k : Nat), q.length < k → (0 : Byte) ∉ q →
    sepLoop c (pre ++ (q ++ 0 :: r)) k pre.length = ok (decide (c ∈ q)) := by
  intro q
  induction q with
  | nil =>
    intro pre k hk _
    obtain ⟨k, rfl⟩ : ∃ j, k = j + 1 := ⟨k - 1, by simp at hk; omega⟩
    simp only [sepLoop]
    rw [rd_ok (by simp)]
    simp
  | cons a q ih =>
    intro pre k hk h0
    obtain ⟨k, rfl⟩ : ∃ j, k = j + 1 := ⟨k - 1, by simp at hk; omega⟩
    simp only [sepLoop]
    rw [rd_ok (by simp)]
    have ha : a ≠ 0 := fun h => h0 (by simp [h])
    simp only [ok_bind, List.getElem_append_right (le_refl _), Nat.sub_self, List.cons_append, List.getElem_cons_zero,
      if_neg ha]
    by_cases hc : c = a
    · simp [hc]
    · rw [if_neg hc]
      have := ih (pre ++ [a]) k (by simp at hk; omega) (fun h => h0 (List.mem_cons_of_mem _ h))
      simp only [List.append_assoc, List.singleton_append, List.length_append, List.length_singleton] at this
      rw [this]
      simp [hc]

theorem isSep_ok (c : Byte) (q r : List Byte) (h0 : (0 : Byte) ∉ q) :
    isSep (q ++ 0 :: r) c = ok (decide (c ∈ q)) := by
  have := sepLoop_ok c r q [] (q ++ 0 :: r).length (by simp) h0
  simpa [isSep] using this

/-- The end of `tokenize` (lines 62-66). -/
def fin (r : St × Nat) : Res (Int × List Nat × List Byte) :=
  if r.1.inside then do
    let b ← wr r.1.buf r.2 0
    ok (r.1.argc, r.1.argv, b)
  else ok (r.1.argc, r.1.argv, r.1.buf)

theorem tokLoop_ok (q r rest : List Byte) (hq : (0 : Byte) ∉ q) (max : Int) :
    ∀ (R A : List Byte) (k n : Nat) (v : List Nat) (ins : Bool) (h : List Byte) (L : List (List Byte)),
    R.length < k → (0 : Byte) ∉ R →
    (ins = false → L = toks (· ∈ q) R) →
    (ins = true → ∃ t, R.splitOnP (· ∈ q) = h :: t ∧ L = t.filter (· ≠ [])) →
    n + (L.take (max - n).toNat).length ≤ v.length →
    (n : Int) + (L.take (max - n).toNat).length ≤ 2147483647 →
    (tokLoop (q ++ 0 :: r) max k A.length ⟨A ++ (R ++ 0 :: rest), ins, n, v⟩ >>= fin).Ok fun x =>
      ∃ (R' : List Byte) (offs : List Nat), x.2.2 = A ++ (R' ++ 0 :: rest) ∧ R'.length = R.length ∧
        offs.map (cstrAt x.2.2) = L.take (max - n).toNat ∧
        x.2.1 = v.take n ++ (offs ++ v.drop (n + offs.length)) ∧ x.1 = n + offs.length ∧
        (ins = true → (R' ++ 0 :: rest).takeWhile (· ≠ 0) = h) := by
  intro R
  induction R with
  | nil =>
    intro A k n v ins h L hk _ h1 h2 hv hn
    obtain ⟨k, rfl⟩ : ∃ j, k = j + 1 := ⟨k - 1, by simp at hk; omega⟩
    simp only [tokLoop]
    rw [rd_ok (by simp)]
    have hL : L = [] := by
      cases ins with
      | false => simpa [toks_nil] using h1 rfl
      | true => obtain ⟨t, e, rfl⟩ := h2 rfl; simp at e; simp [e.2]
    subst hL
    simp only [List.nil_append, ok_bind, List.getElem_append_right (le_refl _), Nat.sub_self, List.getElem_cons_zero,
      if_true, fin]
    cases ins with
    | false =>
      simp only [Bool.false_eq_true, if_false, Ok_ok]
      exact ⟨[], [], by simp, rfl, by simp, by simp, by simp, by simp⟩
    | true =>
      simp only [if_true]
      rw [wr_ok (by simp)]
      simp only [ok_bind, Ok_ok]
      obtain ⟨t, e, _⟩ := h2 rfl
      simp at e
      exact ⟨[], [], by simp, rfl, by simp, by simp, by simp, by simp [e.1]⟩
  | cons c R ih =>
    intro A k n v ins h L hk h0 h1 h2 hv hn
    obtain ⟨k, rfl⟩ : ∃ j, k = j + 1 := ⟨k - 1, by simp at hk; omega⟩
    have hc0 : c ≠ 0 := fun e => h0 (by simp [e])
    have hR0 : (0 : Byte) ∉ R := fun e => h0 (List.mem_cons_of_mem _ e)
    have hk' : R.length < k := by simp at hk; omega
    simp only [tokLoop]
    rw [rd_ok (by simp)]
    simp only [ok_bind, List.getElem_append_right (le_refl _), Nat.sub_self, List.cons_append, List.getElem_cons_zero,
      if_neg hc0]
    rw [isSep_ok c q r hq]
    simp only [ok_bind]
    by_cases hc : c ∈ q
    · simp only [hc, decide_true, tokStep, if_true]
      cases ins with
      | false =>
        simp only [Bool.false_eq_true, if_false, ok_bind]
        have hL := h1 rfl
        rw [toks_cons_sep _ (by simpa using hc)] at hL
        have := ih (A ++ [c]) k n v false h L hk' hR0 (fun _ => hL) (by simp) hv hn
        simp only [List.append_assoc, List.singleton_append, List.length_append, List.length_singleton] at this
        refine this.mono ?_
        rintro x ⟨R', offs, e1, e2, e3, e4, e5, -⟩
        exact ⟨c :: R', offs, by simpa using e1, by simp [e2], e3, e4, e5, by simp⟩
      | true =>
        simp only [if_true]
        rw [wr_ok (by simp)]
        obtain ⟨t, e, hL⟩ := h2 rfl
        rw [splitOnP_cons_sep (by simpa using hc)] at e
        simp only [List.cons.injEq] at e
        obtain ⟨rfl, rfl⟩ := e
        simp only [ok_bind, Bool.false_eq_true, if_false]
        have := ih (A ++ [0]) k n v false [] L hk' hR0 (fun _ => hL) (by simp) hv hn
        simp only [List.append_assoc, List.singleton_append, List.length_append, List.length_singleton] at this
        have hset : (A ++ c :: (R ++ 0 :: rest)).set A.length 0 = A ++ 0 :: (R ++ 0 :: rest) := by simp
        rw [hset]
        refine this.mono ?_
        rintro x ⟨R', offs, e1, e2, e3, e4, e5, -⟩
        exact ⟨0 :: R', offs, by simpa using e1, by simp [e2], e3, e4, e5, by simp⟩
    · have hcf : (decide (c ∈ q)) = false := by simp [hc]
      obtain ⟨hd, tl, s1, s2⟩ := splitOnP_cons_ne (p := fun x => decide (x ∈ q)) (b := R) hcf
      simp only [hcf, tokStep, Bool.false_eq_true, if_false]
      cases ins with
      | true =>
        simp only [Bool.not_true, Bool.false_eq_true, if_false, ok_bind]
        obtain ⟨t, e, hL⟩ := h2 rfl
        rw [s2] at e
        simp only [List.cons.injEq] at e
        obtain ⟨rfl, rfl⟩ := e
        have := ih (A ++ [c]) k n v true hd L hk' hR0 (by simp) (fun _ => ⟨tl, s1, hL⟩) hv hn
        simp only [List.append_assoc, List.singleton_append, List.length_append, List.length_singleton] at this
        refine this.mono ?_
        rintro x ⟨R', offs, e1, e2, e3, e4, e5, e6⟩
        exact ⟨c :: R', offs, by simpa using e1, by simp [e2], e3, e4, e5, fun _ => by rw [List.cons_append, List.takeWhile_cons_of_pos (by simpa using hc0), e6 trivial]⟩
      | false =>
        have hL := h1 rfl
        simp only [toks, s2] at hL
        simp only [Bool.not_false, if_true]
        by_cases hmx : max ≤ n
        · rw [if_pos hmx]
          simp only [ok_bind, if_true, fin]
          rw [wr_ok (by simp)]
          simp only [ok_bind, Ok_ok]
          have : (max - n).toNat = 0 := by omega
          rw [this]
          exact ⟨0 :: R, [], by simp, by simp, by simp, by simp, by simp, by simp⟩
        · rw [if_neg hmx]
          have hL' : L = (c :: hd) :: tl.filter (· ≠ []) := by rw [hL]; simp
          have hm : (max - n).toNat = (max - (n + 1 : Nat)).toNat + 1 := by push_cast; omega
          rw [hL', hm, List.take_succ_cons] at hv hn
          simp only [List.length_cons] at hv hn
          have hnv : n < v.length := by omega
          rw [Int.toNat_natCast, wr_ok hnv, ok_bind, iadd, chk_ok (by unfold InInt; omega)]
          simp only [ok_bind, Bool.false_eq_true, if_false]
          have := ih (A ++ [c]) k (n + 1) (v.set n A.length) true hd (tl.filter (· ≠ [])) hk' hR0 (by simp)
            (fun _ => ⟨tl, s1, rfl⟩) (by simp only [List.length_set]; omega)
            (by push_cast at hn ⊢; omega)
          simp only [List.append_assoc, List.singleton_append, List.length_append, List.length_singleton,
            Nat.cast_add, Nat.cast_one] at this
          refine this.mono ?_
          rintro x ⟨R', offs, e1, e2, e3, e4, e5, e6⟩
          refine ⟨c :: R', A.length :: offs, by simpa using e1, by simp [e2], ?_, ?_, ?_, by simp⟩
          · rw [hL', hm, List.take_succ_cons, List.map_cons, Nat.cast_add, Nat.cast_one, e3]
            congr 1
            rw [e1]
            rw [cstrAt, List.drop_left, List.takeWhile_cons_of_pos (by simpa using hc0), e6 trivial]
          · rw [e4]
            have ht : (v.set n A.length).take (n + 1) = v.take n ++ [A.length] := by
              rw [List.take_succ_eq_append_getElem (by simpa using hnv), List.getElem_set_self, List.take_set_of_le le_rfl]
            rw [List.drop_set_of_lt (by omega), ht, List.length_cons, Nat.add_right_comm n 1, Nat.add_assoc]
            simp
          · rw [e5]; simp; omega

theorem tokenize_ok {s q r rest : List Byte} {v : List Nat} {max : Int} (hs : (0 : Byte) ∉ s)
    (hq : (0 : Byte) ∉ q) (hv : ((toks (· ∈ q) s).take max.toNat).length ≤ v.length)
    (hn : (((toks (· ∈ q) s).take max.toNat).length : Int) ≤ 2147483647) :
    (tokenize (s ++ 0 :: rest) (q ++ 0 :: r) v max).Ok fun x =>
      ∃ (s' : List Byte) (offs : List Nat), x.2.2 = s' ++ 0 :: rest ∧ s'.length = s.length ∧
        offs.map (cstrAt x.2.2) = (toks (· ∈ q) s).take max.toNat ∧
        x.2.1 = offs ++ v.drop offs.length ∧ x.1 = offs.length := by
  have := tokLoop_ok q r rest hq max s [] (s ++ 0 :: rest).length 0 v false [] (toks (· ∈ q) s) (by simp) hs
    (fun _ => rfl) (by simp) (by simpa using hv) (by simpa using hn)
  refine Ok.mono (P := _) (show (tokenize (s ++ 0 :: rest) (q ++ 0 :: r) v max).Ok _ from this) ?_
  rintro x ⟨R', offs, e1, e2, e3, e4, e5, -⟩
  exact ⟨R', offs, by simpa using e1, e2, by simpa using e3, by simpa using e4, by simpa using e5⟩

theorem countLoop_ok (q r rest : List Byte) (hq : (0 : Byte) ∉ q) :
    ∀ (R A : List Byte) (k n : Nat) (ins : Bool) (h : List Byte) (L : List (List Byte)),
    R.length < k → (0 : Byte) ∉ R →
    (ins = false → L = toks (· ∈ q) R) →
    (ins = true → ∃ t, R.splitOnP (· ∈ q) = h :: t ∧ L = t.filter (· ≠ [])) →
    (n : Int) + L.length ≤ 2147483647 →
    countLoop (A ++ (R ++ 0 :: rest)) (q ++ 0 :: r) k A.length ins n = ok (n + L.length : Int) := by
  intro R
  induction R with
  | nil =>
    intro A k n ins h L hk _ h1 h2 hn
    obtain ⟨k, rfl⟩ : ∃ j, k = j + 1 := ⟨k - 1, by simp at hk; omega⟩
    have hL : L = [] := by
      cases ins with
      | false => simpa [toks_nil] using h1 rfl
      | true => obtain ⟨t, e, rfl⟩ := h2 rfl; simp at e; simp [e.2]
    rw [countLoop, rd_ok (by simp), ok_bind]
    simp [hL]
  | cons c R ih =>
    intro A k n ins h L hk h0 h1 h2 hn
    obtain ⟨k, rfl⟩ : ∃ j, k = j + 1 := ⟨k - 1, by simp at hk; omega⟩
    have hc0 : c ≠ 0 := fun e => h0 (by simp [e])
    have hR0 : (0 : Byte) ∉ R := fun e => h0 (List.mem_cons_of_mem _ e)
    have hk' : R.length < k := by simp at hk; omega
    have e0 : (A ++ (c :: R ++ 0 :: rest))[A.length]'(by simp) = c := by simp
    have e1 : A ++ (c :: R ++ 0 :: rest) = (A ++ [c]) ++ (R ++ 0 :: rest) := by simp
    have e2 : A.length + 1 = (A ++ [c]).length := by simp
    rw [countLoop, rd_ok (by simp), ok_bind, e0, if_neg hc0, isSep_ok c q r hq, ok_bind, e1, e2]
    by_cases hc : c ∈ q
    · rw [if_pos (by simpa using hc)]
      refine ih _ k n false [] L hk' hR0 (fun _ => ?_) (by simp) hn
      cases ins with
      | false => rw [h1 rfl, toks_cons_sep _ (by simpa using hc)]
      | true =>
        obtain ⟨t, e, hL⟩ := h2 rfl
        rw [splitOnP_cons_sep (by simpa using hc)] at e
        simp only [List.cons.injEq] at e
        rw [hL, ← e.2, toks]
    · have hcf : (decide (c ∈ q)) = false := by simp [hc]
      obtain ⟨hd, tl, s1, s2⟩ := splitOnP_cons_ne (p := fun x => decide (x ∈ q)) (b := R) hcf
      rw [if_neg (by simpa using hc)]
      cases ins with
      | true =>
        rw [if_neg (by simp)]
        obtain ⟨t, e, hL⟩ := h2 rfl
        rw [s2] at e
        simp only [List.cons.injEq] at e
        obtain ⟨rfl, rfl⟩ := e
        exact ih _ k n true hd L hk' hR0 (by simp) (fun _ => ⟨tl, s1, hL⟩) hn
      | false =>
        have hL := h1 rfl
        simp only [toks, s2] at hL
        have hL' : L = (c :: hd) :: tl.filter (· ≠ []) := by rw [hL]; simp
        have hl : L.length = (tl.filter (· ≠ [])).length + 1 := by rw [hL', List.length_cons]
        rw [if_pos (by simp), iadd, chk_ok (by unfold InInt; omega), ok_bind]
        have := ih (A ++ [c]) k (n + 1) true hd (tl.filter (· ≠ [])) hk' hR0 (by simp)
          (fun _ => ⟨tl, s1, rfl⟩) (by push_cast; omega)
        rw [Nat.cast_add, Nat.cast_one] at this
        rw [this, hl, Nat.cast_add, Nat.cast_one]
        congr 1; omega

theorem count_tokens_ok {s q r rest : List Byte} (hs : (0 : Byte) ∉ s) (hq : (0 : Byte) ∉ q)
    (hn : ((toks (· ∈ q) s).length : Int) ≤ 2147483647) :
    count_tokens (s ++ 0 :: rest) (q ++ 0 :: r) = ok ((toks (· ∈ q) s).length : Int) := by
  have := countLoop_ok q r rest hq s [] (s ++ 0 :: rest).length 0 false [] (toks (· ∈ q) s) (by simp) hs
    (fun _ => rfl) (by simp) (by simpa using hn)
  simpa [count_tokens] using this

end Tok

namespace Cmd

/-- Blanks of the command output: space, tab, newline. -/
abbrev blank (c : Byte) : Bool := c ∈ ([32, 9, 10] : List Byte)

theorem split_ok {buf : CStr} (h0 : (0 : Byte) ∉ buf) (hn : (buf.length : Int) ≤ 2147483647) :
    split buf = ok (toks (· ∈ ([32, 9] : List Byte)) buf) := by
  have hle := toks_length_le (p := (· ∈ ([32, 9] : List Byte))) buf
  have hc := Tok.count_tokens_ok (r := []) (rest := []) (q := [32, 9]) h0 (by decide)
    (by omega)
  have ht := Tok.tokenize_ok (r := []) (rest := []) (q := [32, 9]) (max := ((toks (· ∈ ([32, 9] : List Byte)) buf).length : Int))
    (v := List.replicate (toks (· ∈ ([32, 9] : List Byte)) buf).length 0) h0 (by decide)
    (by simp) (by rw [Int.toNat_natCast, List.take_length]; omega)
  obtain ⟨x, hx, s', offs, e1, e2, e3, e4, e5⟩ := ht
  rw [Int.toNat_natCast, List.take_length] at e3
  have hl : offs.length = (toks (· ∈ ([32, 9] : List Byte)) buf).length := by rw [← e3]; simp
  have hq : ([32, 9] ++ 0 :: [] : List Byte) = [32, 9, 0] := rfl
  rw [hq] at hc hx
  rw [split, hc, ok_bind, Int.toNat_natCast, hx, ok_bind, if_neg (by rw [e5, hl]; simp), e4, hl]
  simp only [List.drop_replicate, Nat.sub_self, List.replicate_zero, List.append_nil]
  rw [← e3]; rfl

/-! ### Running the command -/

theorem flatLen_ok : ∀ (l : List CStr) (len : Int), 0 ≤ len →
    len + ((l.map fun a => a.length + 1).sum : Nat) ≤ 2147483647 →
    flatLen l len = ok (len + ((l.map fun a => a.length + 1).sum : Nat)) := by
  intro l
  induction l with
  | nil => intro len _ _; simp [flatLen]
  | cons a l ih =>
    intro len h0 h
    rw [List.map_cons, List.sum_cons] at h ⊢
    push_cast at h
    rw [flatLen, iadd, chk_ok (by unfold InInt; omega), ok_bind, ih _ (by omega) (by omega)]
    congr 1; push_cast; omega

theorem flatCat_ok (len : Int) : ∀ (l : List CStr) (rv : CStr),
    rv.length + 1 + ((l.map fun a => a.length + 1).sum : Nat) ≤ len →
    flatCat len l rv = ok (rv ++ l.flatMap fun a => 32 :: a) := by
  intro l
  induction l with
  | nil => intro rv _; simp [flatCat]
  | cons a l ih =>
    intro rv h
    rw [List.map_cons, List.sum_cons] at h
    push_cast at h
    rw [flatCat, if_neg (by omega), ih _ (by simp; omega)]
    simp

/-- The command line: the executable and the arguments, one blank before each. -/
def cmdline (exename : CStr) (argv : List CStr) : CStr := exename ++ argv.flatMap fun a => 32 :: a

theorem cmdline_length (e : CStr) (argv : List CStr) :
    (cmdline e argv).length = e.length + (argv.map fun a => a.length + 1).sum := by
  simp [cmdline, List.length_flatMap]

theorem flatten_ok {e : CStr} {argv : List CStr} (h : ((cmdline e argv).length : Int) + 1 ≤ 2147483647) :
    flatten e argv = ok (cmdline e argv) := by
  rw [cmdline_length] at h
  push_cast at h
  rw [flatten, iadd, chk_ok (by unfold InInt; omega), ok_bind, flatLen_ok _ _ (by omega) (by push_cast; omega),
    ok_bind, if_neg (by omega), flatCat_ok _ _ _ (by omega)]
  rfl

/-- No stretch of more than 4095 bytes without a newline. -/
def ShortLines (out : List Byte) : Prop :=
  ∀ a m b : List Byte, out = a ++ (m ++ b) → (10 : Byte) ∉ m → m.length ≤ 4095

theorem fgets_spec : ∀ (n : Nat) (out : List Byte),
    (fgets n out).1 ++ (fgets n out).2 = out ∧ (0 < n → out ≠ [] → (fgets n out).1 ≠ []) ∧
    ((∃ l, (fgets n out).1 = l ++ [10] ∧ (10 : Byte) ∉ l) ∨
      ((10 : Byte) ∉ (fgets n out).1 ∧ ((fgets n out).2 = [] ∨ (fgets n out).1.length = n))) := by
  intro n
  induction n with
  | zero => intro out; simp [fgets]
  | succ n ih =>
    intro out
    cases out with
    | nil => simp [fgets]
    | cons c r =>
      by_cases hc : c = 10
      · rw [fgets, if_pos hc]
        exact ⟨by simp, by simp, Or.inl ⟨[], by simp [hc], by simp⟩⟩
      · rw [fgets, if_neg hc]
        obtain ⟨h1, -, h3⟩ := ih r
        refine ⟨by simp [h1], by simp, ?_⟩
        rcases h3 with ⟨l, e1, e2⟩ | ⟨e1, e2⟩
        · refine Or.inl ⟨c :: l, by simp [e1], ?_⟩
          rw [List.mem_cons]; rintro (h | h)
          · exact hc h.symm
          · exact e2 h
        · refine Or.inr ⟨?_, ?_⟩
          · rw [List.mem_cons]; rintro (h | h)
            · exact hc h.symm
            · exact e1 h
          · rcases e2 with h | h
            · exact Or.inl h
            · exact Or.inr (by simp [h])

theorem takeWhile_all {l : List Byte} (h0 : (0 : Byte) ∉ l) : l.takeWhile (· ≠ 0) = l :=
  List.takeWhile_eq_self_iff.2 fun x hx => by
    have : x ≠ 0 := fun e => h0 (e ▸ hx)
    simpa using this

/-- One round of reading: the line without its newline, and the rest of the output. -/
theorem round_ok {out : List Byte} (h0 : (0 : Byte) ∉ out) (hne : out ≠ []) :
    ∃ l rest, chomp (fgets 4095 out).1 = ok l ∧ (fgets 4095 out).2 = rest ∧ rest.length < out.length ∧
      (0 : Byte) ∉ l ∧ (10 : Byte) ∉ l ∧ (0 : Byte) ∉ rest ∧
      (out = l ++ 10 :: rest ∨ (out = l ++ rest ∧ l ≠ [] ∧ (rest = [] ∨ l.length = 4095))) := by
  obtain ⟨h1, h2, h3⟩ := fgets_spec 4095 out
  replace h2 := h2 (by norm_num) hne
  generalize (fgets 4095 out).1 = L at h1 h2 h3 ⊢
  generalize (fgets 4095 out).2 = rest at h1 h3 ⊢
  subst h1
  rw [List.mem_append, not_or] at h0
  rw [chomp, takeWhile_all h0.1]
  simp only [if_neg h2]
  rcases h3 with ⟨l, rfl, hl⟩ | ⟨hl, h⟩
  · refine ⟨l, rest, by simp, rfl, by simp; omega, fun h => h0.1 (List.mem_append_left _ h), hl, h0.2,
      Or.inl (by simp)⟩
  · refine ⟨L, rest, ?_, rfl, ?_, h0.1, hl, h0.2, Or.inr ⟨rfl, h2, h⟩⟩
    · rw [if_neg]
      intro h
      exact hl (List.mem_of_getLast? h)
    · rw [List.length_append]
      have := List.length_pos_iff.2 h2
      omega

/-- What the read loop collects: the tokens are those of the whole output when no line is cut. -/
theorem readLoop_some : ∀ (k : Nat) (out : List Byte) (b : CStr) (t : Int), out.length < k →
    (0 : Byte) ∉ out → (0 : Byte) ∉ b → (10 : Byte) ∉ b → (b.length : Int) + 1 ≤ t →
    t + 3 * out.length ≤ 2147483647 → ShortLines out →
    (readLoop k out (some (b, t))).Ok fun r => ∃ b' t', r = some (b', t') ∧ (0 : Byte) ∉ b' ∧ (10 : Byte) ∉ b' ∧
      (b'.length : Int) + 1 ≤ t' ∧ t' ≤ 2147483647 ∧ toks blank b' = toks blank b ++ toks blank out := by
  intro k
  induction k with
  | zero => intro out b t h; omega
  | succ k ih =>
    intro out b t hk h0 hb0 hb1 hbt ht hs
    rw [readLoop]
    by_cases hne : out = []
    · rw [if_pos hne, Ok_ok]
      subst hne
      exact ⟨b, t, rfl, hb0, hb1, hbt, by simpa using ht, by simp [toks_nil]⟩
    · rw [if_neg hne]
      obtain ⟨l, rest, e1, e2, hlt, hl0, hl1, hr0, hcase⟩ := round_ok h0 hne
      rw [e1, e2]
      have hlen : (l.length : Int) + 2 + 3 * rest.length ≤ 3 * out.length := by
        rcases hcase with h | ⟨h, hl, -⟩
        · rw [h]; simp; omega
        · have := List.length_pos_iff.2 hl
          rw [h]; simp; omega
      simp only [ok_bind]
      rw [iadd, chk_ok (by unfold InInt; omega), ok_bind, iadd, chk_ok (by unfold InInt; omega), ok_bind,
        if_neg (by omega)]
      have hsr : ShortLines rest := by
        intro a m b h hm
        rcases hcase with h' | ⟨h', -, -⟩
        · exact hs (l ++ 10 :: a) m b (by rw [h', h]; simp) hm
        · exact hs (l ++ a) m b (by rw [h', h]; simp) hm
      refine (ih rest (b ++ 32 :: l) _ (by omega) hr0 ?_ ?_ (by simp; omega) (by omega) hsr).mono ?_
      · simp only [List.mem_append, List.mem_cons]
        rintro (h | h | h)
        · exact hb0 h
        · exact absurd h (by decide)
        · exact hl0 h
      · simp only [List.mem_append, List.mem_cons]
        rintro (h | h | h)
        · exact hb1 h
        · exact absurd h (by decide)
        · exact hl1 h
      · rintro r ⟨b', t', rfl, p1, p2, p3, p4, p5⟩
        refine ⟨b', t', rfl, p1, p2, p3, p4, ?_⟩
        rw [p5, toks_append_sep _ _ (by decide), List.append_assoc]
        congr 1
        rcases hcase with h | ⟨h, hl, h' | h'⟩
        · rw [h, toks_append_sep _ _ (by decide)]
        · rw [h, h']; simp [toks_nil]
        · cases hrest : rest with
          | nil => rw [h, hrest]; simp [toks_nil]
          | cons c r2 =>
            have hc : c = 10 := by
              by_contra hc
              have := hs [] (l ++ [c]) r2 (by rw [h, hrest]; simp) (by
                simp only [List.mem_append, List.mem_singleton]
                rintro (h | h)
                · exact hl1 h
                · exact hc h.symm)
              simp at this; omega
            subst hc
            rw [h, hrest, toks_append_sep _ _ (by decide), toks_cons_sep _ (by decide)]

theorem toks_blank_eq {b : List Byte} (h : (10 : Byte) ∉ b) : toks (· ∈ ([32, 9] : List Byte)) b = toks blank b := by
  have : ∀ b : List Byte, (10 : Byte) ∉ b → b.splitOnP (· ∈ ([32, 9] : List Byte)) = b.splitOnP blank := by
    intro b
    induction b with
    | nil => intro _; simp
    | cons c b ih =>
      intro h
      have hc : c ≠ 10 := fun e => h (by rw [e]; exact List.mem_cons_self)
      rw [List.splitOnP_cons, List.splitOnP_cons, ih fun h' => h (List.mem_cons_of_mem _ h')]
      have : blank c = decide (c ∈ ([32, 9] : List Byte)) := by
        simp only [blank, List.mem_cons, List.not_mem_nil, or_false]
        have : ¬ c = 10 := hc
        simp only [this, or_false]
      rw [this]
  rw [toks, toks, this b h]

/-- The tokens a command contributes. -/
theorem replace_ok {popen : CStr → Option (List Byte)} {e : CStr} {argv : List CStr} {out : List Byte}
    (hcmd : ((cmdline e argv).length : Int) + 1 ≤ 2147483647) (hp : popen (cmdline e argv) = some out)
    (h0 : (0 : Byte) ∉ out) (hs : ShortLines out) (hlen : 3 * (out.length : Int) ≤ 2147483647) :
    replace popen e argv = ok (toks blank out) := by
  rw [replace, flatten_ok hcmd, ok_bind, hp]
  simp only
  by_cases hne : out = []
  · subst hne
    rw [readLoop, if_pos rfl, ok_bind]
    simp only
    rw [split_ok (by simp) (by simp), toks_nil, toks_nil]
  · obtain ⟨l, rest, e1, e2, hlt, hl0, hl1, hr0, hcase⟩ := round_ok h0 hne
    have hlen' : (l.length : Int) + 1 + 3 * rest.length ≤ 3 * out.length := by
      rcases hcase with h | ⟨h, hl, -⟩
      · rw [h]; simp; omega
      · have := List.length_pos_iff.2 hl
        rw [h]; simp; omega
    have hsr : ShortLines rest := by
      intro a m b h hm
      rcases hcase with h' | ⟨h', -, -⟩
      · exact hs (l ++ 10 :: a) m b (by rw [h', h]; simp) hm
      · exact hs (l ++ a) m b (by rw [h', h]; simp) hm
    rw [readLoop, if_neg hne, e1, e2, ok_bind]
    simp only
    rw [iadd, chk_ok (by unfold InInt; omega), ok_bind, if_neg (by omega)]
    obtain ⟨r, hr, b', t', rfl, p1, p2, p3, p4, p5⟩ := readLoop_some out.length rest l _ hlt hr0 hl0 hl1 le_rfl
      (by omega) hsr
    rw [hr, ok_bind]
    simp only
    rw [split_ok p1 (by omega), toks_blank_eq p2, p5]
    congr 1
    rcases hcase with h | ⟨h, hl, h' | h'⟩
    · rw [h, toks_append_sep _ _ (by decide)]
    · rw [h, h']; simp [toks_nil]
    · cases hrest : rest with
      | nil => rw [h, hrest]; simp [toks_nil]
      | cons c r2 =>
        have hc : c = 10 := by
          by_contra hc
          have := hs [] (l ++ [c]) r2 (by rw [h, hrest]; simp) (by
            simp only [List.mem_append, List.mem_singleton]
            rintro (h | h)
            · exact hl1 h
            · exact hc h.symm)
          simp at this; omega
        subst hc
        rw [h, hrest, toks_append_sep _ _ (by decide), toks_cons_sep _ (by decide)]

/-! ### Brackets -/

/-- Argument lists whose brackets match. -/
inductive Bal : List CStr → Prop
  | nil : Bal []
  | word {w : CStr} {l : List CStr} : w ≠ LBRK → w ≠ RBRK → Bal l → Bal (w :: l)
  | group {g l : List CStr} : Bal g → Bal l → Bal (LBRK :: (g ++ RBRK :: l))

def bal : List CStr → Nat → Bool
  | [], d => d = 0
  | a :: l, d =>
    if a = LBRK then bal l (d + 1)
    else if a = RBRK then decide (0 < d) && bal l (d - 1)
    else bal l d

theorem lr : LBRK ≠ RBRK := by decide

theorem bal_append {g : List CStr} (h : Bal g) : ∀ (l : List CStr) (d : Nat), bal (g ++ l) d = bal l d := by
  induction h with
  | nil => intro l d; rfl
  | word h1 h2 _ ih => intro l d; rw [List.cons_append, bal, if_neg h1, if_neg h2, ih]
  | group _ _ ih1 ih2 =>
    intro l d
    rw [List.cons_append, bal, if_pos rfl, List.append_assoc, ih1, List.cons_append, bal, if_neg lr.symm, if_pos rfl]
    simpa using ih2 l d

theorem Bal.append {g l : List CStr} (h : Bal g) (h' : Bal l) : Bal (g ++ l) := by
  induction h with
  | nil => exact h'
  | word h1 h2 _ ih => exact .word h1 h2 ih
  | group h1 _ _ ih2 => rw [List.cons_append, List.append_assoc]; exact .group h1 ih2

theorem of_bal : ∀ (n : Nat) (l : List CStr) (d : Nat), l.length ≤ n → bal l d = true →
    (d = 0 → Bal l) ∧
      (∀ d', d = d' + 1 → ∃ g r, Bal g ∧ l = g ++ RBRK :: r ∧ bal r d' = true) := by
  intro n
  induction n with
  | zero =>
    intro l d hl h
    obtain rfl : l = [] := List.length_eq_zero_iff.1 (by omega)
    simp only [bal, decide_eq_true_eq] at h
    exact ⟨fun _ => .nil, fun d' h' => by omega⟩
  | succ n ih =>
    intro l d hl h
    cases l with
    | nil =>
      simp only [bal, decide_eq_true_eq] at h
      exact ⟨fun _ => .nil, fun d' h' => by omega⟩
    | cons a l =>
      replace hl : l.length ≤ n := by simpa using hl
      rw [bal] at h
      by_cases h1 : a = LBRK
      · subst h1
        rw [if_pos rfl] at h
        obtain ⟨g, r, hg, rfl, hr⟩ := (ih l (d + 1) hl h).2 d rfl
        have := ih r d (by simp at hl; omega) hr
        refine ⟨fun h0 => .group hg (this.1 h0), fun d' hd => ?_⟩
        obtain ⟨g2, r2, hg2, rfl, hr2⟩ := this.2 d' hd
        exact ⟨LBRK :: (g ++ RBRK :: g2), r2, .group hg hg2, by simp, hr2⟩
      · rw [if_neg h1] at h
        by_cases h2 : a = RBRK
        · rw [if_pos h2] at h
          cases d with
          | zero => simp at h
          | succ d =>
            simp only [Nat.zero_lt_succ, decide_true, Bool.true_and, Nat.add_sub_cancel] at h
            refine ⟨by omega, fun d' hd => ⟨[], l, .nil, by simp [h2], ?_⟩⟩
            obtain rfl : d = d' := by omega
            exact h
        · rw [if_neg h2] at h
          obtain ⟨i1, i2⟩ := ih l d hl h
          refine ⟨fun h0 => .word h1 h2 (i1 h0), fun d' hd => ?_⟩
          obtain ⟨g, r, hg, rfl, hr⟩ := i2 d' hd
          exact ⟨a :: g, r, .word h1 h2 hg, rfl, hr⟩

theorem bal_iff {l : List CStr} : bal l 0 = true ↔ Bal l :=
  ⟨fun h => (of_bal l.length l 0 le_rfl h).1 rfl, fun h => by
    have := bal_append h [] 0
    rw [List.append_nil] at this
    rw [this]; rfl⟩

theorem check_neg : ∀ (l : List CStr), check_balance l (-1) = ok false := by
  intro l
  cases l with
  | nil => rw [check_balance, if_pos (by decide)]
  | cons a l => rw [check_balance, if_pos (by decide)]

theorem check_ok : ∀ (l : List CStr) (d : Nat), (d : Int) + l.length ≤ 2147483647 →
    check_balance l d = ok (bal l d) := by
  intro l
  induction l with
  | nil =>
    intro d _
    rw [check_balance, bal]
    by_cases h : d = 0
    · simp [h]
    · rw [if_pos (by omega)]; simp [h]
  | cons a l ih =>
    intro d hd
    rw [List.length_cons] at hd
    push_cast at hd
    rw [check_balance, if_neg (by omega), bal]
    by_cases h1 : a = LBRK
    · rw [if_pos h1, if_pos h1, iadd, chk_ok (by unfold InInt; omega), ok_bind]
      have := ih (d + 1) (by push_cast; omega)
      rwa [Nat.cast_add, Nat.cast_one] at this
    · rw [if_neg h1, if_neg h1]
      by_cases h2 : a = RBRK
      · rw [if_pos h2, if_pos h2, isub, chk_ok (by unfold InInt; omega), ok_bind]
        cases d with
        | zero => exact check_neg l
        | succ d =>
          simp only [Nat.zero_lt_succ, decide_true, Bool.true_and, Nat.add_sub_cancel]
          rw [Nat.cast_add, Nat.cast_one, Int.add_sub_cancel]
          exact ih d (by omega)
      · rw [if_neg h2, if_neg h2]
        exact ih d (by omega)

theorem match_append {g : List CStr} (h : Bal g) : ∀ (l : List CStr) (i : Nat) (d : Int), 1 ≤ d →
    d + g.length ≤ 2147483647 →
    find_matching_right_bracket (g ++ l) i d = find_matching_right_bracket l (i + g.length) d := by
  induction h with
  | nil => intro l i d _ _; rfl
  | word h1 h2 _ ih =>
    intro l i d hd hm
    rw [List.length_cons] at hm ⊢
    push_cast at hm
    rw [List.cons_append, find_matching_right_bracket, if_neg h2, if_neg h1, ih _ _ _ hd (by omega),
      Nat.add_right_comm, Nat.add_assoc]
  | @group g l' _ _ ih1 ih2 =>
    intro l i d hd hm
    simp only [List.length_cons, List.length_append] at hm
    push_cast at hm
    rw [List.cons_append, find_matching_right_bracket, if_neg lr, if_pos rfl, iadd, chk_ok (by unfold InInt; omega),
      ok_bind, List.append_assoc, ih1 _ _ _ (by omega) (by omega), List.cons_append, find_matching_right_bracket,
      if_pos rfl, isub, chk_ok (by unfold InInt; omega), ok_bind, if_neg (by omega), Int.add_sub_cancel,
      ih2 _ _ _ hd (by omega)]
    congr 1
    simp only [List.length_cons, List.length_append]
    omega

theorem match_ok {g r : List CStr} (h : Bal g) (i : Nat) (hm : (g.length : Int) + 1 ≤ 2147483647) :
    find_matching_right_bracket (g ++ RBRK :: r) i 1 = ok (i + g.length) := by
  rw [match_append h _ _ _ le_rfl (by omega), find_matching_right_bracket, if_pos rfl, isub,
    chk_ok (by unfold InInt; omega), ok_bind, if_pos (by omega)]

theorem first_none {b : CStr} : ∀ (l : List CStr) (i : Nat), find_first_bracket b l i = none ↔ b ∉ l := by
  intro l
  induction l with
  | nil => intro i; simp [find_first_bracket]
  | cons a l ih =>
    intro i
    rw [find_first_bracket]
    by_cases h : a = b
    · simp [h]
    · rw [if_neg h, ih, List.mem_cons, not_or]
      exact ⟨fun h' => ⟨fun e => h e.symm, h'⟩, fun h' => h'.2⟩

theorem first_append {b : CStr} : ∀ (w r : List CStr) (i : Nat), b ∉ w →
    find_first_bracket b (w ++ b :: r) i = some (i + w.length) := by
  intro w
  induction w with
  | nil => intro r i _; simp [find_first_bracket]
  | cons a w ih =>
    intro r i h
    rw [List.mem_cons, not_or] at h
    rw [List.cons_append, find_first_bracket, if_neg (fun e => h.1 e.symm), ih _ _ h.2, List.length_cons]
    congr 1; omega

/-- A balanced list with brackets has a first group. -/
theorem Bal.first {l : List CStr} (h : Bal l) : (LBRK ∉ l ∧ RBRK ∉ l) ∨
    ∃ w g r, l = w ++ LBRK :: (g ++ RBRK :: r) ∧ LBRK ∉ w ∧ RBRK ∉ w ∧ Bal g ∧ Bal r := by
  induction h with
  | nil => exact Or.inl ⟨by simp, by simp⟩
  | @word w l h1 h2 _ ih =>
    rcases ih with ⟨i1, i2⟩ | ⟨w', g, r, rfl, i1, i2, i3, i4⟩
    · refine Or.inl ⟨?_, ?_⟩
      · rw [List.mem_cons, not_or]; exact ⟨fun e => h1 e.symm, i1⟩
      · rw [List.mem_cons, not_or]; exact ⟨fun e => h2 e.symm, i2⟩
    · refine Or.inr ⟨w :: w', g, r, rfl, ?_, ?_, i3, i4⟩
      · rw [List.mem_cons, not_or]; exact ⟨fun e => h1 e.symm, i1⟩
      · rw [List.mem_cons, not_or]; exact ⟨fun e => h2 e.symm, i2⟩
  | @group g l hg hl _ _ => exact Or.inr ⟨[], g, l, rfl, by simp, by simp, hg, hl⟩

variable {popen : CStr → Option (List Byte)} {e : CStr}

theorem bal_of_words {w : List CStr} (h1 : LBRK ∉ w) (h2 : RBRK ∉ w) : Bal w := by
  induction w with
  | nil => exact .nil
  | cons a w ih =>
    rw [List.mem_cons, not_or] at h1 h2
    exact .word (fun e => h1.1 e.symm) (fun e => h2.1 e.symm) (ih h1.2 h2.2)

/-- One round on a list that has a group. -/
theorem once_group {w g r : List CStr} (h1 : LBRK ∉ w) (h2 : RBRK ∉ w) (hg : Bal g) (hr : Bal r)
    (hn : ((w ++ LBRK :: (g ++ RBRK :: r)).length : Int) ≤ 2147483647) :
    cmd_interpolate_once popen e (w ++ LBRK :: (g ++ RBRK :: r)) =
      (replace popen e g >>= fun out =>
        if (w.length : Int) + out.length + (w ++ LBRK :: (g ++ RBRK :: r)).length ≤ 2147483647 then
          ok (some (w ++ out ++ r)) else ub) := by
  have hb : bal (w ++ LBRK :: (g ++ RBRK :: r)) 0 = true :=
    bal_iff.2 ((bal_of_words h1 h2).append (.group hg hr))
  have hd : (w ++ LBRK :: (g ++ RBRK :: r)).drop (w.length + 1) = g ++ RBRK :: r := by
    rw [← List.drop_drop, List.drop_left]; rfl
  have hc := check_ok (w ++ LBRK :: (g ++ RBRK :: r)) 0 (by simpa using hn)
  rw [hb] at hc
  have hlen : (w ++ LBRK :: (g ++ RBRK :: r)).length = w.length + g.length + r.length + 2 := by
    simp only [List.length_append, List.length_cons]; omega
  rw [cmd_interpolate_once, first_append _ _ _ h1]
  simp only [Nat.zero_add]
  rw [show ((0 : Nat) : Int) = 0 from rfl] at hc
  rw [hlen] at hn ⊢
  push_cast at hn
  rw [hc, ok_bind, if_neg (by simp), hd, match_ok hg _ (by omega), ok_bind]
  rw [show w.length + 1 + g.length - w.length - 1 = g.length by omega, List.take_left]
  cases replace popen e g with
  | throw => rw [throw_bind, throw_bind]
  | ub => rw [ub_bind, ub_bind]
  | timeout => rw [timeout_bind, timeout_bind]
  | ok out =>
    rw [ok_bind, ok_bind, List.take_left]
    have hd2 : (w ++ LBRK :: (g ++ RBRK :: r)).drop (w.length + 1 + g.length + 1) = r := by
      rw [Nat.add_assoc, ← List.drop_drop, hd, ← List.drop_drop, List.drop_left]; rfl
    rw [hd2]
    by_cases hs : (w.length : Int) + out.length + ((w.length + g.length + r.length + 2 : Nat) : Int) ≤ 2147483647
    · rw [if_pos hs]
      push_cast at hs
      rw [iadd, chk_ok (by unfold InInt; omega), ok_bind, iadd, chk_ok (by unfold InInt; push_cast; omega), ok_bind,
        isub, chk_ok (by unfold InInt; push_cast; omega), ok_bind, isub, chk_ok (by unfold InInt; push_cast; omega),
        ok_bind, if_neg]
      simp only [List.length_append, not_not]
      push_cast; omega
    · rw [if_neg hs]
      by_cases hs1 : (w.length : Int) + out.length ≤ 2147483647
      · rw [iadd, chk_ok (by unfold InInt; omega), ok_bind, iadd, chk_ub (by unfold InInt; omega), ub_bind]
      · rw [iadd, chk_ub (by unfold InInt; omega), ub_bind]

theorem once_none {argv : List CStr} (h1 : LBRK ∉ argv) (h2 : RBRK ∉ argv) :
    cmd_interpolate_once popen e argv = ok none := by
  rw [cmd_interpolate_once, (first_none _ _).2 h1]
  simp only
  rw [(first_none _ _).2 h2]

theorem once_throw {argv : List CStr} (h : ¬ Bal argv) (hn : (argv.length : Int) ≤ 2147483647) :
    cmd_interpolate_once popen e argv = throw := by
  rw [cmd_interpolate_once]
  cases h1 : find_first_bracket LBRK argv 0 with
  | none =>
    simp only
    cases h2 : find_first_bracket RBRK argv 0 with
    | none => exact absurd (bal_of_words ((first_none _ _).1 h1) ((first_none _ _).1 h2)) h
    | some i => rfl
  | some i =>
    have hc := check_ok argv 0 (by simpa using hn)
    rw [show ((0 : Nat) : Int) = 0 from rfl] at hc
    have hb : bal argv 0 = false := by
      rw [Bool.eq_false_iff]; exact fun h' => h (bal_iff.1 h')
    rw [hb] at hc
    simp only
    rw [hc, ok_bind, if_pos (by rfl)]

/-- Whatever the commands print: a normal end leaves no brackets. -/
theorem interpolate_clean : ∀ (k : Nat) (argv r : List CStr), cmd_interpolate popen e k argv = ok r →
    LBRK ∉ r ∧ RBRK ∉ r := by
  intro k
  induction k with
  | zero => intro argv r h; simp [cmd_interpolate] at h
  | succ k ih =>
    intro argv r h
    rw [cmd_interpolate] at h
    obtain ⟨o, h1, h2⟩ := bind_eq_ok.1 h
    cases o with
    | some a => exact ih a r h2
    | none =>
      simp only [ok.injEq] at h2
      subst h2
      rw [cmd_interpolate_once] at h1
      cases f1 : find_first_bracket LBRK argv 0 with
      | some i =>
        rw [f1] at h1
        simp only at h1
        obtain ⟨b, -, h1⟩ := bind_eq_ok.1 h1
        split at h1
        · simp at h1
        · obtain ⟨i, -, h1⟩ := bind_eq_ok.1 h1
          obtain ⟨o, -, h1⟩ := bind_eq_ok.1 h1
          obtain ⟨n1, -, h1⟩ := bind_eq_ok.1 h1
          obtain ⟨n2, -, h1⟩ := bind_eq_ok.1 h1
          obtain ⟨n3, -, h1⟩ := bind_eq_ok.1 h1
          obtain ⟨n4, -, h1⟩ := bind_eq_ok.1 h1
          split at h1 <;> simp at h1
      | none =>
        rw [f1] at h1
        cases f2 : find_first_bracket RBRK argv 0 with
        | some i => rw [f2] at h1; simp at h1
        | none => exact ⟨(first_none _ _).1 f1, (first_none _ _).1 f2⟩

/-- A piece of an argument list: a word or a bracketed group. -/
inductive Item where
  | word (w : CStr)
  | group (g : List CStr)

def Item.Ok : Item → Prop
  | .word w => w ≠ LBRK ∧ w ≠ RBRK
  | .group g => Bal g

def Item.flat : Item → List CStr
  | .word w => [w]
  | .group g => LBRK :: (g ++ [RBRK])

def Item.value (out : List CStr → List CStr) : Item → List CStr
  | .word w => [w]
  | .group g => out g

def Item.groups : Item → Nat
  | .word _ => 0
  | .group _ => 1

theorem bal_items (its : List Item) (h : ∀ i ∈ its, i.Ok) : Bal (its.flatMap Item.flat) := by
  induction its with
  | nil => exact .nil
  | cons i its ih =>
    rw [List.flatMap_cons]
    have h1 := h i List.mem_cons_self
    have h2 := ih fun j hj => h j (List.mem_cons_of_mem _ hj)
    cases i with
    | word w => exact .word h1.1 h1.2 h2
    | group g => simpa [Item.flat] using Bal.group (h1 : Bal g) h2

theorem items_of_bal {l : List CStr} (h : Bal l) : ∃ its : List Item, (∀ i ∈ its, i.Ok) ∧ its.flatMap Item.flat = l := by
  induction h with
  | nil => exact ⟨[], by simp, rfl⟩
  | @word w l h1 h2 _ ih =>
    obtain ⟨its, i1, rfl⟩ := ih
    refine ⟨.word w :: its, fun i hi => ?_, rfl⟩
    rcases List.mem_cons.1 hi with rfl | hi
    · exact ⟨h1, h2⟩
    · exact i1 i hi
  | @group g l hg _ _ ih =>
    obtain ⟨its, i1, rfl⟩ := ih
    refine ⟨.group g :: its, fun i hi => ?_, by simp [Item.flat]⟩
    rcases List.mem_cons.1 hi with rfl | hi
    · exact hg
    · exact i1 i hi

theorem interpolate_items (out : List CStr → List CStr) : ∀ (its : List Item) (w : List CStr) (k : Nat),
    (its.map Item.groups).sum < k → LBRK ∉ w → RBRK ∉ w → (∀ i ∈ its, i.Ok) →
    (∀ g, Item.group g ∈ its → replace popen e g = ok (out g) ∧ LBRK ∉ out g ∧ RBRK ∉ out g) →
    2 * ((w.length : Int) + (its.flatMap (Item.value out)).length) + (its.flatMap Item.flat).length ≤ 2147483647 →
    cmd_interpolate popen e k (w ++ its.flatMap Item.flat) = ok (w ++ its.flatMap (Item.value out)) := by
  intro its
  induction its with
  | nil =>
    intro w k hk h1 h2 _ _ _
    obtain ⟨k, rfl⟩ : ∃ j, k = j + 1 := ⟨k - 1, by simp at hk; omega⟩
    rw [List.flatMap_nil, List.flatMap_nil, List.append_nil, cmd_interpolate, once_none h1 h2, ok_bind]
  | cons i its ih =>
    intro w k hk h1 h2 hi hg hn
    have hi1 := hi i List.mem_cons_self
    have hi2 : ∀ j ∈ its, j.Ok := fun j hj => hi j (List.mem_cons_of_mem _ hj)
    have hg2 : ∀ g, Item.group g ∈ its → replace popen e g = ok (out g) ∧ LBRK ∉ out g ∧ RBRK ∉ out g :=
      fun g hj => hg g (List.mem_cons_of_mem _ hj)
    rw [List.map_cons, List.sum_cons] at hk
    rw [List.flatMap_cons, List.flatMap_cons, List.length_append, List.length_append] at hn
    push_cast at hn
    rw [List.flatMap_cons, List.flatMap_cons, ← List.append_assoc]
    cases i with
    | word a =>
      simp only [Item.flat, Item.value, List.length_singleton] at hn ⊢
      rw [ih (w ++ [a]) k (by simpa [Item.groups] using hk) ?_ ?_ hi2 hg2 ?_, List.append_assoc]
      · rw [List.mem_append, not_or, List.mem_singleton]; exact ⟨h1, fun e => hi1.1 e.symm⟩
      · rw [List.mem_append, not_or, List.mem_singleton]; exact ⟨h2, fun e => hi1.2 e.symm⟩
      · rw [List.length_append, List.length_singleton]; push_cast; omega
    | group g =>
      obtain ⟨k, rfl⟩ : ∃ j, k = j + 1 := ⟨k - 1, by omega⟩
      obtain ⟨r1, r2, r3⟩ := hg g List.mem_cons_self
      simp only [Item.flat, Item.value, List.length_cons, List.length_append, List.length_nil, Item.groups] at hn hk ⊢
      push_cast at hn
      have hflat : w ++ (LBRK :: (g ++ [RBRK])) ++ its.flatMap Item.flat
          = w ++ LBRK :: (g ++ RBRK :: its.flatMap Item.flat) := by simp
      rw [hflat, cmd_interpolate, once_group h1 h2 hi1 (bal_items its hi2) (by
        simp only [List.length_cons, List.length_append]; push_cast; omega), r1, ok_bind, if_pos (by
        simp only [List.length_cons, List.length_append]; push_cast; omega), ok_bind]
      simp only
      rw [ih (w ++ out g) k (by omega) ?_ ?_ hi2 hg2 ?_, List.append_assoc]
      · rw [List.mem_append, not_or]; exact ⟨h1, r2⟩
      · rw [List.mem_append, not_or]; exact ⟨h2, r3⟩
      · rw [List.length_append]; push_cast; omega

/-- A command that prints its own brackets again keeps the loop going for ever. -/
theorem interpolate_forever {g : List CStr} (hg : Bal g) (hn : (g.length : Int) + 2 ≤ 1000000000)
    (hr : replace popen e g = ok (LBRK :: (g ++ [RBRK]))) (k : Nat) :
    cmd_interpolate popen e k (LBRK :: (g ++ [RBRK])) = timeout := by
  induction k with
  | zero => rfl
  | succ k ih =>
    have := once_group (popen := popen) (e := e) (w := []) (g := g) (r := []) (by simp) (by simp) hg .nil (by simp; omega)
    simp only [List.nil_append] at this
    rw [cmd_interpolate, this, hr, ok_bind, if_pos (by simp; omega), ok_bind]
    simp only [List.append_nil]
    exact ih

/-! ### Lines that `fgets` cuts -/

theorem fgets_replicate {c : Byte} (hc : c ≠ 10) (m : Nat) : ∀ n : Nat,
    fgets n (List.replicate (n + m) c) = (List.replicate n c, List.replicate m c) := by
  intro n
  induction n with
  | zero => simp [fgets]
  | succ n ih => rw [Nat.add_right_comm, List.replicate_succ, fgets, if_neg hc, ih, List.replicate_succ]

theorem chomp_replicate {c : Byte} (h0 : c ≠ 0) (hc : c ≠ 10) {n : Nat} (hn : 0 < n) :
    chomp (List.replicate n c) = ok (List.replicate n c) := by
  have hne : List.replicate n c ≠ [] := by simp; omega
  have hmem : ∀ x ∈ List.replicate n c, x = c := fun x hx => (List.mem_replicate.1 hx).2
  rw [chomp, takeWhile_all (fun h => h0 (hmem _ h).symm)]
  simp only [if_neg hne]
  rw [if_neg]
  intro h
  exact hc (hmem _ (List.mem_of_getLast? h)).symm

theorem toks_replicate {p : Byte → Bool} {c : Byte} (hc : p c = false) {n : Nat} (hn : 0 < n) :
    toks p (List.replicate n c) = [List.replicate n c] := by
  have : (List.replicate n c).splitOnP p = [List.replicate n c] :=
    List.splitOnP_eq_singleton fun x hx => by rw [(List.mem_replicate.1 hx).2, hc]
  rw [toks, this]
  simp; omega

theorem replace_long {g : List CStr} {c : Byte} (hc : c ≠ 0 ∧ c ≠ 9 ∧ c ≠ 10 ∧ c ≠ 32) {m : Nat} (hm : 0 < m)
    (hm' : m ≤ 4095) (hcmd : ((cmdline e g).length : Int) + 1 ≤ 2147483647)
    (hp : popen (cmdline e g) = some (List.replicate (4095 + m) c)) :
    replace popen e g = ok [List.replicate 4095 c, List.replicate m c] ∧
      toks blank (List.replicate (4095 + m) c) = [List.replicate (4095 + m) c] := by
  obtain ⟨h0, h9, h10, h32⟩ := hc
  have hbl : blank c = false := by
    simp only [blank, List.mem_cons, List.not_mem_nil, or_false, h32, h9, h10, or_self, decide_false]
  refine ⟨?_, toks_replicate hbl (by omega)⟩
  obtain ⟨j, hj⟩ : ∃ j, (List.replicate (4095 + m) c).length + 1 = j + 3 := ⟨4095 + m - 2, by simp; omega⟩
  have hne : List.replicate (4095 + m) c ≠ [] := by simp
  have hne2 : List.replicate m c ≠ [] := by simp; omega
  have hf1 := fgets_replicate h10 m 4095
  have hf2 : fgets 4095 (List.replicate m c) = (List.replicate m c, []) := by
    obtain ⟨k, hk⟩ : ∃ k, 4095 = m + k := ⟨4095 - m, by omega⟩
    have : ∀ (m k : Nat), fgets (m + k) (List.replicate m c) = (List.replicate m c, []) := by
      intro m
      induction m with
      | zero => intro k; cases k <;> simp [fgets]
      | succ m ih =>
        intro k
        rw [Nat.add_right_comm, List.replicate_succ, fgets, if_neg h10, ih]
    rw [hk]; exact this m k
  have hrd : readLoop (j + 3) (List.replicate (4095 + m) c) none
      = ok (some (List.replicate 4095 c ++ 32 :: List.replicate m c, (4096 : Int) + (m : Int) + 2)) := by
    rw [readLoop, if_neg hne, hf1]
    rw [chomp_replicate h0 h10 (by norm_num), ok_bind]
    simp only [List.length_replicate]
    rw [iadd, chk_ok (by unfold InInt; omega), ok_bind, if_neg (by omega), readLoop, if_neg hne2, hf2,
      chomp_replicate h0 h10 hm, ok_bind]
    simp only [List.length_replicate]
    rw [iadd, chk_ok (by unfold InInt; omega), ok_bind, iadd, chk_ok (by unfold InInt; omega), ok_bind,
      if_neg (by omega), readLoop, if_pos rfl]
    norm_num
  have hmem : ∀ x, x ∈ List.replicate 4095 c ++ 32 :: List.replicate m c → x = c ∨ x = 32 := by
    intro x hx
    rw [List.mem_append, List.mem_cons] at hx
    rcases hx with h | h | h
    · exact Or.inl (List.mem_replicate.1 h).2
    · exact Or.inr h
    · exact Or.inl (List.mem_replicate.1 h).2
  rw [replace, flatten_ok hcmd, ok_bind, hp]
  simp only
  rw [hj, hrd, ok_bind]
  simp only
  rw [split_ok (fun h => by rcases hmem _ h with h | h; exact h0 h.symm; exact absurd h (by decide)) (by
      simp only [List.length_append, List.length_cons, List.length_replicate]; omega),
    toks_blank_eq (fun h => by rcases hmem _ h with h | h; exact h10 h.symm; exact absurd h (by decide)),
    toks_append_sep _ _ (by decide), toks_replicate hbl (by norm_num), toks_replicate hbl hm]
  rfl

end Cmd
end Spffl
