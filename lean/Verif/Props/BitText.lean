import Verif.Proof.BitText2

/-!
# C97: bits, bit vectors and bit matrices as text
-/

namespace Spffl.Props
namespace BText97
open Res Spffl.Scan Spffl.BText Spffl.VText

/-! ### Bits -/

theorem extractUInt_blanks (v0 : ℕ) (cs : List Char) :
    cs.dropWhile blank ≠ [] → extractUInt v0 (.ofChars (cs.dropWhile blank)) = extractUInt v0 (.ofChars cs) := by
  intro _
  have : (cs.dropWhile blank).dropWhile isSpace = cs.dropWhile isSpace := by
    induction cs with
    | nil => rfl
    | cons c cs ih =>
      by_cases hb : blank c = true
      · have hs : isSpace c = true := by
          simp only [blank, Bool.or_eq_true, decide_eq_true_eq] at hb
          rcases hb with (rfl | rfl) | rfl <;> rfl
        rename_i hne
        rw [List.dropWhile_cons_of_pos hb] at hne ⊢
        rw [List.dropWhile_cons_of_pos hs]
        exact ih hne
      · rw [List.dropWhile_cons_of_neg hb]
  unfold extractUInt
  simp only [IStream.ofChars, IStream.good]
  rw [this]
  rfl

theorem readBit_eq (r0 : ℕ) (b : Bool) {cs : List Char} (h : cs.dropWhile blank ≠ []) :
    readBit r0 b cs = (decide ((extractUInt r0 (.ofChars cs)).1 % 2 = 1), (extractUInt r0 (.ofChars cs)).2) := by
  rw [← extractUInt_blanks r0 cs h]
  unfold readBit
  cases hd : cs.dropWhile blank with
  | nil => exact absurd hd h
  | cons c r => rfl

theorem text_not_blank {cs tail : List Char} {n : ℤ} (h : IntText cs n tail) : cs.dropWhile blank ≠ [] := by
  intro h0
  have h1 := h.digits.1
  rw [List.dropWhile_eq_nil_iff] at h0
  apply h1
  rw [List.dropWhile_eq_nil_iff]
  intro c hc
  have := h0 c hc
  simp only [blank, Bool.or_eq_true, decide_eq_true_eq] at this
  rcases this with (rfl | rfl) | rfl <;> rfl

/-- C97: a text that starts with an integer of at most 32 bits, with or without a sign, is read as its parity; the stream is
after it. -/
theorem C97_bit_read {cs tail : List Char} {n : ℤ} (h : IntText cs n tail) (hn : n.natAbs < 2 ^ 32) (r0 : ℕ) (b : Bool) :
    readBit r0 b cs = (decide (n % 2 = 1), ⟨tail, tail.isEmpty, false⟩) := by
  rw [readBit_eq r0 b (text_not_blank h)]
  obtain ⟨v, h1, h2⟩ := (extractUInt_text (v0 := r0) h).1 hn
  rw [h1]
  have : v % 2 = 1 ↔ n % 2 = 1 := by omega
  simp [this]

/-- C97: any other text is refused. -/
theorem C97_bit_refused {cs : List Char} (h : ¬ ∃ n tail, IntText cs n tail ∧ n.natAbs < 2 ^ 32) (r0 : ℕ) (b : Bool) :
    (readBit r0 b cs).2.fail = true := by
  by_cases hb : cs.dropWhile blank = []
  · unfold readBit; rw [hb]
  · rw [readBit_eq r0 b hb]
    by_cases ht : ∃ n tail, IntText cs n tail
    · obtain ⟨n, tail, ht⟩ := ht
      show (extractUInt r0 (.ofChars cs)).2.fail = true
      rw [(extractUInt_text ht).2 (by by_contra hn; exact h ⟨n, tail, ht, by omega⟩)]
    · exact extractUInt_none ht

/-- C97: `from_string` accepts the same texts, whatever comes after the integer. -/
theorem C97_bit_from_string (cs : List Char) (b : Bool) :
    bitFromString cs = some b ↔ ∃ n tail, IntText cs n tail ∧ n.natAbs < 2 ^ 32 ∧ b = decide (n % 2 = 1) := by
  unfold bitFromString
  dsimp only
  by_cases ht : ∃ n tail, IntText cs n tail
  · obtain ⟨n, tail, ht⟩ := ht
    by_cases hn : n.natAbs < 2 ^ 32
    · obtain ⟨v, h1, h2⟩ := (extractUInt_text (v0 := 0) ht).1 hn
      rw [h1, if_neg (by simp)]
      have hv : v % 2 = 1 ↔ n % 2 = 1 := by omega
      simp only [Option.some.injEq, hv]
      constructor
      · rintro rfl; exact ⟨n, tail, ht, hn, rfl⟩
      · rintro ⟨m, t, hm, _, rfl⟩; rw [(hm.unique ht).1]
    · rw [(extractUInt_text ht).2 (by omega), if_pos rfl]
      constructor
      · intro h; cases h
      · rintro ⟨m, t, hm, hlt, _⟩; rw [(hm.unique ht).1] at hlt; exact absurd hlt hn
  · rw [if_pos (extractUInt_none ht)]
    constructor
    · intro h; cases h
    · rintro ⟨m, t, hm, _⟩; exact absurd ⟨m, t, hm⟩ ht

/-- C97: what is printed of a bit is read back as the same bit. -/
theorem C97_bit_round_trip (b b' : Bool) (r0 : ℕ) :
    readBit r0 b' (showBit b) = (b, ⟨[], true, false⟩) ∧ bitFromString (showBit b) = some b := by
  have h : IntText (showBit b) (if b then 1 else 0) [] := by
    refine ⟨[], showBit b, by simp, by cases b <;> simp [showBit], ?_, by simp, .inl ⟨by simp, ?_⟩⟩
    · cases b <;> simp [showBit] <;> decide
    · cases b <;> rfl
  have hs : (if b then (1 : ℤ) else 0).natAbs < 2 ^ 32 := by cases b <;> decide
  have hp : decide ((if b then (1 : ℤ) else 0) % 2 = 1) = b := by cases b <;> rfl
  constructor
  · rw [C97_bit_read h hs, hp]; rfl
  · exact (C97_bit_from_string _ _).2 ⟨_, _, h, hs, hp.symm⟩

/-! ### Bit vectors -/

/-- C97: integers up to the end of the text are read as the vector of their parities, however many there are and whatever
the memory held; the stream is then at its end. -/
theorem C97_vector_read {cs : List Char} {xs : List ℤ} (h : IntSeq cs xs) (hmax : cs.length ≤ 2147483647) (u : BitVec 64) :
    ∃ v, readBV u cs = ok (v, ⟨[], true, false⟩) ∧ BV.Rep v (vecOf xs.length xs) := by
  obtain ⟨w, s, h1, h2⟩ := readBV_spec (u := u) hmax
  rcases h2 with ⟨ys, hy, hv, rfl⟩ | ⟨hno, _⟩
  · obtain rfl := h.unique hy
    exact ⟨w, h1, hv.rep⟩
  · exact absurd ⟨xs, h⟩ hno

/-- C97: any other text is refused; what the object then holds is a vector. -/
theorem C97_vector_refused {cs : List Char} (h : ¬ ∃ xs, IntSeq cs xs) (hmax : cs.length ≤ 2147483647) (u : BitVec 64) :
    ∃ v s, readBV u cs = ok (v, s) ∧ s.fail = true ∧ ∃ n, ∃ x : Fin n → ZMod 2, BV.Rep v x := by
  obtain ⟨w, s, h1, h2⟩ := readBV_spec (u := u) hmax
  rcases h2 with ⟨ys, hy, _⟩ | ⟨_, hf, ys, hv⟩
  · exact absurd ⟨ys, hy⟩ h
  · exact ⟨w, s, h1, hf, _, _, hv.rep⟩

theorem intSeq_trailing {cs ws : List Char} (hw : ws ≠ []) (hs : ∀ c ∈ ws, isSpace c = true) : ¬ ∃ xs, IntSeq (cs ++ ws) xs := by
  rintro ⟨xs, h⟩
  obtain ⟨u, e, he, hd⟩ := h.last_dig
  have hl : (cs ++ ws).getLast? = some e := by rw [he]; simp
  rw [List.getLast?_append_of_ne_nil _ hw] at hl
  have := hs e (List.mem_of_mem_getLast? hl)
  rw [dig_not_space hd] at this
  cases this

/-- C97, violated: white space after the last element makes the vector be refused. -/
theorem C97_violated_trailing_blank {cs ws : List Char} (hw : ws ≠ []) (hs : ∀ c ∈ ws, isSpace c = true)
    (hmax : (cs ++ ws).length ≤ 2147483647) (u : BitVec 64) : ∃ v s, readBV u (cs ++ ws) = ok (v, s) ∧ s.fail = true := by
  obtain ⟨v, s, h1, h2, _⟩ := C97_vector_refused (intSeq_trailing hw hs) hmax u
  exact ⟨v, s, h1, h2⟩

/-- C97: the digits are printed with a space between any two of them; `sqzout` prints them without, `crout` with a newline
after each. -/
theorem C97_vector_show {n : ℕ} {v : BV} {x : Fin n → ZMod 2} (h : BV.Rep v x) :
    showBV v = ok (List.intersperse ' ' (bitChars x)) ∧ sqzout v = ok (bitChars x) ∧
      crout v = ok ((bitChars x).flatMap fun c => [c, '\n']) :=
  ⟨showBV_ok h, sqzout_ok h, crout_ok h⟩

theorem intSeq_show {n : ℕ} (hn : 0 < n) (x : Fin n → ZMod 2) :
    IntSeq (List.intersperse ' ' (bitChars x)) ((List.ofFn x).map fun b => if b = 1 then 1 else 0) := by
  have := intSeq_intersperse (List.ofFn x) (by intro h; have := congrArg List.length h; simp at this; omega) (ws := []) (by simp)
  simpa [bitChars] using this

theorem length_intersperse (c : Char) : ∀ l : List Char, (List.intersperse c l).length = 2 * l.length - 1
  | [] => rfl
  | [_] => rfl
  | a :: b :: l => by
    have := length_intersperse c (b :: l)
    simp only [List.intersperse_cons₂, List.length_cons] at this ⊢
    omega

/-- C97: what is printed of a vector is read back as the same vector. -/
theorem C97_vector_round_trip {n : ℕ} (hn : 0 < n) (hmax : n ≤ 2 ^ 30) {v : BV} {x : Fin n → ZMod 2} (h : BV.Rep v x) (u : BitVec 64) :
    ∃ t w, showBV v = ok t ∧ readBV u t = ok (w, ⟨[], true, false⟩) ∧ BV.Rep w x := by
  obtain ⟨w, h1, h2⟩ := C97_vector_read (intSeq_show hn x) (by rw [length_intersperse, bitChars_length]; omega) u
  refine ⟨_, w, showBV_ok h, h1, ?_⟩
  have hl : ((List.ofFn x).map fun b => if b = 1 then (1 : ℤ) else 0).length = n := by simp
  rw [hl] at h2
  rwa [vecOf_digits] at h2

/-- C97: from a general stream one line is read, and the rest left. -/
theorem C97_vector_line {l rest : List Char} {xs : List ℤ} (h : IntSeq l xs) (hl : '\n' ∉ l) (hlen : l.length < 2048) (u : BitVec 64) :
    ∃ v, readBVLine u (l ++ '\n' :: rest) = ok (v, ⟨rest, false, false⟩) ∧ BV.Rep v (vecOf xs.length xs) := by
  obtain ⟨v, h1, h2⟩ := C97_vector_read h (by omega) u
  refine ⟨v, ?_, h2⟩
  unfold readBVLine
  rw [getLine_line hl hlen]
  dsimp only
  rw [h1]
  rfl

/-- C97, violated: a vector of 1025 elements or more is not read back from a general stream. -/
theorem C97_violated_long_vector {n : ℕ} (hn : 1025 ≤ n) {v : BV} {x : Fin n → ZMod 2} (h : BV.Rep v x) (u : BitVec 64)
    (rest : List Char) : ∃ t, showBV v = ok t ∧ ∃ w s, readBVLine u (t ++ '\n' :: rest) = ok (w, s) ∧ s.fail = true := by
  refine ⟨_, showBV_ok h, ?_⟩
  have hlen : (List.intersperse ' ' (bitChars x)).length = 2 * n - 1 := by rw [length_intersperse, bitChars_length]
  have hnl : ∀ c ∈ List.intersperse ' ' (bitChars x), c ≠ '\n' := by
    intro c hc hc'
    subst hc'
    have hd : ∀ l : List Char, '\n' ∈ List.intersperse ' ' l → '\n' ∈ l := by
      intro l
      induction l with
      | nil => simp
      | cons a l ih =>
        cases l with
        | nil => simp
        | cons b l =>
          simp only [List.intersperse_cons₂, List.mem_cons] at ih ⊢
          rintro (h | h | h)
          · exact .inl h
          · cases h
          · exact .inr (ih h)
    have := hd _ hc
    simp only [bitChars, List.mem_map] at this
    obtain ⟨b, _, hb⟩ := this
    split_ifs at hb <;> exact absurd hb (by decide)
  unfold readBVLine getLine
  have ht : ((List.intersperse ' ' (bitChars x) ++ '\n' :: rest).takeWhile (· ≠ '\n')) = List.intersperse ' ' (bitChars x) := by
    rw [List.takeWhile_append_of_pos (by simpa using hnl), List.takeWhile_cons_of_neg (by simp), List.append_nil]
  dsimp only
  rw [ht, if_neg (by omega)]
  obtain ⟨w, s, h1, _⟩ := readBV_spec (u := u) (cs := (List.intersperse ' ' (bitChars x)).take 2047) (by simp)
  dsimp only
  rw [h1]
  exact ⟨w, _, rfl, by simp⟩

/-! ### Bit matrices -/

section Matrix
variable {u : BitVec 64} {A : BM} {els ls : List (List Char)} {xss : List (List ℤ)}

theorem row_bounds (hls : List.Forall₂ BitLine ls xss) : ∀ xs ∈ xss, xs ≠ [] ∧ xs.length < 8192 := by
  induction hls with
  | nil => simp
  | cons h _ ih =>
    intro xs hx
    rcases List.mem_cons.1 hx with rfl | hx
    · have h1 := h.2.2.length_le
      have h2 := take_len ‹_›
      exact ⟨h.2.2.ns_ne, lt_of_le_of_lt (h1.trans h2) h.2.1⟩
    · exact ih xs hx

/-- The loop over empty lines and rows. -/
theorem loop_rows (hA : A.num_rows = 0) (hels : ∀ l ∈ els, BlankLine l) (hls : List.Forall₂ BitLine ls xss) (tail : List Char) :
    ∃ t n, HeldAll t xss ∧ bmLoop u ((lines els ++ (lines ls ++ tail)).length + 1) A.num_rows (List.replicate 40 BV.empty)
      (lines els ++ (lines ls ++ tail)) = bmLoop u (n + 1) xss.length t tail := by
  have h1 := length_lines els
  have h2 := length_lines ls
  rw [hA]
  obtain ⟨t, e1⟩ := bmLoop_blanks (u := u) hels ((lines els ++ (lines ls ++ tail)).length + 1) (List.replicate 40 BV.empty)
    (lines ls ++ tail) (by simp; omega)
  rw [e1]
  obtain ⟨t', e2, e3⟩ := bmLoop_rows (u := u) hls ((lines els ++ (lines ls ++ tail)).length + 1 - els.length) t [] tail (heldAll_nil t)
    (by simp; omega)
  refine ⟨t', (lines els ++ (lines ls ++ tail)).length - els.length - ls.length, by simpa using e2, ?_⟩
  have e : (lines els ++ (lines ls ++ tail)).length + 1 - els.length - ls.length =
      (lines els ++ (lines ls ++ tail)).length - els.length - ls.length + 1 := by simp; omega
  rw [← e]
  simpa using e3

/-- How the rows end: with the text, what comes after the last newline being dropped, or with a line without content. -/
def RowsEnd (tail : List Char) (s : IStream) : Prop :=
  ('\n' ∉ tail ∧ tail.length < 8192 ∧ s = ⟨[], true, false⟩) ∨
    ∃ e rest, tail = e ++ '\n' :: rest ∧ BlankLine e ∧ s = ⟨rest, rest.isEmpty, false⟩

theorem loop_done (hA : A.num_rows = 0) (hels : ∀ l ∈ els, BlankLine l) (hls : List.Forall₂ BitLine ls xss) (hne : xss ≠ [])
    {tail : List Char} {s : IStream} (ht : RowsEnd tail s) : ∃ t s', HeldAll t xss ∧ afterPeek s' = s ∧
      bmLoop u ((lines els ++ (lines ls ++ tail)).length + 1) A.num_rows (List.replicate 40 BV.empty)
        (lines els ++ (lines ls ++ tail)) = ok (xss.length, t, s', .done) := by
  obtain ⟨t, n, h1, h2⟩ := loop_rows (u := u) hA hels hls tail
  rcases ht with ⟨e1, e2, rfl⟩ | ⟨e, rest, rfl, hb, rfl⟩
  · obtain ⟨t', h3, h4⟩ := bmLoop_end (u := u) (n := n) h1 e1 e2
    exact ⟨t', _, h3, afterPeek_end, by rw [h2, h4]⟩
  · obtain ⟨t', h3, h4⟩ := bmLoop_blank (u := u) (n := n) h1 hb rest
    rw [if_neg hne] at h4
    exact ⟨t', _, h3, afterPeek_rest rest, by rw [h2, h4]⟩

/-- C97: lines without content are skipped, then rows are read, one a line, up to the end of the text or to a line without
content.  If they all have the same number of elements the matrix consists of their parities, and the stream is after that
line. -/
theorem C97_matrix_read (hA : A.num_rows = 0) (hels : ∀ l ∈ els, BlankLine l) (hls : List.Forall₂ BitLine ls xss) (hne : xss ≠ [])
    {c : ℕ} (hc : ∀ xs ∈ xss, xs.length = c) {tail : List Char} {s : IStream} (ht : RowsEnd tail s) :
    ∃ B, readBM u A (lines els ++ (lines ls ++ tail)) = ok (B, s) ∧ BM.Rep B (matOf xss.length c xss) := by
  obtain ⟨t, s', h1, rfl, h2⟩ := loop_done (u := u) hA hels hls hne ht
  have hb := row_bounds hls
  obtain ⟨B, s'', h3, h4, _⟩ := readBM_done h2 h1 hne (fun xs hx => by have := (hb xs hx).2; omega)
  obtain ⟨rfl, rfl⟩ := h4 c hc
  refine ⟨_, h3, h1.rep hc ?_⟩
  obtain ⟨x0, hx0⟩ := List.exists_mem_of_ne_nil _ hne
  intro h0
  have := hc _ hx0
  rw [h0] at this
  exact (hb _ hx0).1 (List.length_eq_zero_iff.1 this)

/-- C97: rows of different lengths are refused. -/
theorem C97_matrix_ragged (hA : A.num_rows = 0) (hels : ∀ l ∈ els, BlankLine l) (hls : List.Forall₂ BitLine ls xss) {xs ys : List ℤ}
    (hx : xs ∈ xss) (hy : ys ∈ xss) (hxy : xs.length ≠ ys.length) {tail : List Char} {s : IStream} (ht : RowsEnd tail s) :
    ∃ B s', readBM u A (lines els ++ (lines ls ++ tail)) = ok (B, s') ∧ s'.fail = true := by
  obtain ⟨t, s', h1, rfl, h2⟩ := loop_done (u := u) hA hels hls (List.ne_nil_of_mem hx) ht
  have hb := row_bounds hls
  obtain ⟨B, s'', h3, _, h4⟩ := readBM_done h2 h1 (List.ne_nil_of_mem hx) (fun xs hx => by have := (hb xs hx).2; omega)
  refine ⟨B, s'', h3, ?_⟩
  rw [h4 (fun ⟨c, hc⟩ => hxy ((hc _ hx).trans (hc _ hy).symm))]

/-- C97: a line that is neither empty nor a row is refused, and the stream is left after it. -/
theorem C97_matrix_bad_row (hA : A.num_rows = 0) (hels : ∀ l ∈ els, BlankLine l) (hls : List.Forall₂ BitLine ls xss) {l : List Char}
    (h1 : '\n' ∉ l) (h2 : l.length < 8192) (h3 : ¬ BlankLine l) (h4 : ¬ ∃ xs, BitLine l xs) (rest : List Char) :
    ∃ B, readBM u A (lines els ++ (lines ls ++ (l ++ '\n' :: rest))) = ok (B, ⟨rest, false, true⟩) := by
  obtain ⟨t, n, e1, e2⟩ := loop_rows (u := u) hA hels hls (l ++ '\n' :: rest)
  obtain ⟨t', _, e3⟩ := bmLoop_bad (u := u) (n := n) e1 h1 h2 h3 h4 rest
  exact ⟨_, readBM_early (e2.trans e3)⟩

/-- C97: a line of 8192 characters or more is refused. -/
theorem C97_matrix_long_line (hA : A.num_rows = 0) (hels : ∀ l ∈ els, BlankLine l) (hls : List.Forall₂ BitLine ls xss) {l : List Char}
    (h1 : '\n' ∉ l) (h2 : 8192 ≤ l.length) (rest : List Char) :
    ∃ B s, readBM u A (lines els ++ (lines ls ++ (l ++ rest))) = ok (B, s) ∧ s.fail = true := by
  obtain ⟨t, n, e1, e2⟩ := loop_rows (u := u) hA hels hls (l ++ rest)
  obtain ⟨t', s, h3, e3, hf⟩ := bmLoop_long (u := u) (n := n) (rest := rest) e1 h1 h2
  by_cases hne : xss = []
  · subst hne
    exact ⟨_, _, readBM_none (e2.trans e3), rfl⟩
  · have hb := row_bounds hls
    obtain ⟨B, s'', h4, h5, h6⟩ := readBM_done (e2.trans e3) h3 hne (fun xs hx => by have := (hb xs hx).2; omega)
    refine ⟨B, s'', h4, ?_⟩
    by_cases hc : ∃ c, ∀ xs ∈ xss, xs.length = c
    · obtain ⟨c, hc⟩ := hc
      rw [(h5 c hc).2]
      exact afterPeek_fail hf
    · rw [h6 hc]

/-- C97: a text without rows is refused. -/
theorem C97_matrix_no_rows (hA : A.num_rows = 0) (hels : ∀ l ∈ els, BlankLine l) {tail : List Char} (h1 : '\n' ∉ tail)
    (h2 : tail.length < 8192) : readBM u A (lines els ++ tail) = ok (⟨0, A.num_cols, []⟩, ⟨[], true, true⟩) := by
  obtain ⟨t, n, e1, e2⟩ := loop_rows (u := u) hA hels .nil tail
  obtain ⟨t', _, e3⟩ := bmLoop_end (u := u) (n := n) e1 h1 h2
  have := readBM_none (e2.trans e3)
  simpa [lines, afterPeek_end] using this

/-- C97: whatever the text, reading into a matrix without rows ends without undefined behaviour, and if no failure is
reported then the text consists of empty lines, rows of one length, and an end, and those rows were read. -/
theorem C97_matrix_total (hA : A.num_rows = 0) (cs : List Char) : ∃ B s, readBM u A cs = ok (B, s) ∧ (s.fail = false →
    ∃ els ls xss tail c, cs = lines els ++ (lines ls ++ tail) ∧ (∀ l ∈ els, BlankLine l) ∧ List.Forall₂ BitLine ls xss ∧
      xss ≠ [] ∧ (∀ xs ∈ xss, xs.length = c) ∧ RowsEnd tail s ∧ BM.Rep B (matOf xss.length c xss)) := by
  obtain ⟨els, ls, xss, tail, t, s, how, rfl, h1, _, h2, h3, h4, h5⟩ :=
    bmLoop_total (u := u) (cs.length + 1) cs (List.replicate 40 BV.empty) [] (heldAll_nil _) (by omega)
  simp only [List.nil_append] at h3 h4 h5
  have h4' : bmLoop u ((lines els ++ (lines ls ++ tail)).length + 1) A.num_rows (List.replicate 40 BV.empty)
      (lines els ++ (lines ls ++ tail)) = ok (xss.length, t, s, how) := by rw [hA]; exact h4
  have hb := row_bounds h2
  cases how with
  | early =>
    refine ⟨_, _, readBM_early h4', fun hf => ?_⟩
    rcases h5 with ⟨h, _⟩ | ⟨h, _⟩ | h
    · cases h
    · cases h
    · rw [h] at hf; cases hf
  | done =>
    by_cases hne : xss = []
    · subst hne
      exact ⟨_, _, readBM_none h4', fun hf => by cases hf⟩
    · obtain ⟨B, s', h6, h7, h8⟩ := readBM_done h4' h3 hne (fun xs hx => by have := (hb xs hx).2; omega)
      refine ⟨B, s', h6, fun hf => ?_⟩
      by_cases hc : ∃ c, ∀ xs ∈ xss, xs.length = c
      · obtain ⟨c, hc⟩ := hc
        obtain ⟨rfl, rfl⟩ := h7 c hc
        have hc0 : c ≠ 0 := by
          obtain ⟨x0, hx0⟩ := List.exists_mem_of_ne_nil _ hne
          intro h0
          have := hc _ hx0
          rw [h0] at this
          exact (hb _ hx0).1 (List.length_eq_zero_iff.1 this)
        refine ⟨els, ls, xss, tail, c, rfl, h1, h2, hne, hc, ?_, h3.rep hc hc0⟩
        rcases h5 with ⟨_, e1, e2, rfl⟩ | ⟨_, _, e, rest, rfl, he, rfl⟩ | h
        · exact .inl ⟨e1, e2, afterPeek_end⟩
        · exact .inr ⟨e, rest, rfl, he, afterPeek_rest rest⟩
        · rw [afterPeek_fail h] at hf; cases hf
      · rw [h8 hc] at hf; cases hf

end Matrix

theorem showBM_ok {m n : ℕ} {A : BM} {M : Matrix (Fin m) (Fin n) (ZMod 2)} (h : BM.Rep A M) :
    showBM A = ok (lines (List.ofFn fun i => List.intersperse ' ' (bitChars (M i)))) := by
  unfold showBM
  rw [h.nr]
  have hlen : (List.ofFn fun i => List.intersperse ' ' (bitChars (M i))).length = m := by simp
  obtain ⟨r, h1, h2⟩ := forUp_ok (body := fun i os => do
      let r ← rd A.rows i
      let t ← showBV r
      ok (os ++ t ++ ['\n']))
    (fun i os => os = lines ((List.ofFn fun i => List.intersperse ' ' (bitChars (M i))).take i)) (Nat.zero_le m) (s := [])
    (by simp [lines]) (fun i os _ hi hos => by
      obtain ⟨v, e1, e2⟩ := h.at hi
      rw [e1, ok_bind, showBV_ok e2, ok_bind, Ok_ok, hos, List.take_succ]
      simp [lines, hi])
  rw [h1, h2, List.take_of_length_le (by rw [hlen])]

theorem matOf_digits {m n : ℕ} (M : Matrix (Fin m) (Fin n) (ZMod 2)) :
    matOf m n (List.ofFn fun i => (List.ofFn (M i)).map fun b => if b = 1 then 1 else 0) = M := by
  funext i
  unfold matOf
  rw [List.getD_eq_getElem _ _ (by simp), List.getElem_ofFn]
  exact vecOf_digits (M i)

theorem bitLine_show {n : ℕ} (hn : 0 < n) (hmax : n ≤ 4096) (x : Fin n → ZMod 2) :
    BitLine (List.intersperse ' ' (bitChars x)) ((List.ofFn x).map fun b => if b = 1 then 1 else 0) := by
  have hseq := intSeq_show hn x
  have hmem : ∀ c ∈ List.intersperse ' ' (bitChars x), c = ' ' ∨ c = '0' ∨ c = '1' := by
    have hd : ∀ l : List Char, (∀ c ∈ l, c = '0' ∨ c = '1') → ∀ c ∈ List.intersperse ' ' l, c = ' ' ∨ c = '0' ∨ c = '1' := by
      intro l
      induction l with
      | nil => simp
      | cons a l ih =>
        cases l with
        | nil => intro h c hc; simp at hc; exact .inr (h c (by simp [hc]))
        | cons b l =>
          intro h c hc
          simp only [List.intersperse_cons₂, List.mem_cons] at hc
          rcases hc with rfl | rfl | hc
          · exact .inr (h _ (by simp))
          · exact .inl rfl
          · exact ih (fun c hc => h c (by simp [hc])) c hc
    refine hd _ fun c hc => ?_
    simp only [bitChars, List.mem_map] at hc
    obtain ⟨b, _, rfl⟩ := hc
    split_ifs <;> simp
  refine ⟨fun h => ?_, ?_, ?_⟩
  · rcases hmem _ h with h | h | h <;> cases h
  · rw [length_intersperse, bitChars_length]; omega
  · rw [List.takeWhile_eq_self_iff.2]
    · exact hseq
    · intro c hc
      rcases hmem _ hc with rfl | rfl | rfl <;> rfl

theorem forall₂_ofFn {α β : Type} {m : ℕ} {R : α → β → Prop} {f : Fin m → α} {g : Fin m → β} (h : ∀ i, R (f i) (g i)) :
    List.Forall₂ R (List.ofFn f) (List.ofFn g) := by
  rw [List.forall₂_iff_get]
  refine ⟨by simp, fun i h1 h2 => ?_⟩
  simpa using h ⟨i, by simpa using h1⟩

/-- C97: what is printed of a matrix of at most 4096 columns is read back as the same matrix, also if an empty line and then
anything follows; that is left to be read. -/
theorem C97_matrix_round_trip {m n : ℕ} (hm : 0 < m) (hn : 0 < n) (hmax : n ≤ 4096) {A B : BM} {M : Matrix (Fin m) (Fin n) (ZMod 2)}
    (h : BM.Rep A M) (hB : B.num_rows = 0) (u : BitVec 64) : ∃ t, showBM A = ok t ∧
      (∃ C, readBM u B t = ok (C, ⟨[], true, false⟩) ∧ BM.Rep C M) ∧
      ∀ rest, ∃ C, readBM u B (t ++ '\n' :: rest) = ok (C, ⟨rest, rest.isEmpty, false⟩) ∧ BM.Rep C M := by
  refine ⟨_, showBM_ok h, ?_⟩
  have hls : List.Forall₂ BitLine (List.ofFn fun i => List.intersperse ' ' (bitChars (M i)))
      (List.ofFn fun i => (List.ofFn (M i)).map fun b => if b = 1 then (1 : ℤ) else 0) :=
    forall₂_ofFn fun i => bitLine_show hn hmax (M i)
  have hne : (List.ofFn fun i => (List.ofFn (M i)).map fun b => if b = 1 then (1 : ℤ) else 0) ≠ [] := by
    intro h0; have := congrArg List.length h0; simp at this; omega
  have hc : ∀ xs ∈ (List.ofFn fun i => (List.ofFn (M i)).map fun b => if b = 1 then (1 : ℤ) else 0), xs.length = n := by
    intro xs hx
    rw [List.mem_ofFn] at hx
    obtain ⟨i, rfl⟩ := hx
    simp
  have hl : (List.ofFn fun i => (List.ofFn (M i)).map fun b => if b = 1 then (1 : ℤ) else 0).length = m := by simp
  have key : ∀ {tail s}, RowsEnd tail s → ∃ C, readBM u B (lines (List.ofFn fun i => List.intersperse ' ' (bitChars (M i))) ++ tail) =
      ok (C, s) ∧ BM.Rep C M := by
    intro tail s ht
    obtain ⟨C, h1, h2⟩ := C97_matrix_read (u := u) hB (els := []) (by simp) hls hne hc ht
    refine ⟨C, by simpa [lines] using h1, ?_⟩
    rw [hl] at h2
    rwa [matOf_digits] at h2
  constructor
  · have := key (tail := []) (.inl ⟨by simp, by simp, rfl⟩)
    simpa using this
  · intro rest
    exact key (tail := '\n' :: rest) (.inr ⟨[], rest, rfl, ⟨by simp, by simp, by simp⟩, rfl⟩)

/-- C97, violated: what is printed of a matrix with more than 4096 columns is not read back. -/
theorem C97_violated_wide_matrix {m n : ℕ} (hm : 0 < m) (hn : 4096 < n) {A B : BM} {M : Matrix (Fin m) (Fin n) (ZMod 2)}
    (h : BM.Rep A M) (hB : B.num_rows = 0) (u : BitVec 64) :
    ∃ t, showBM A = ok t ∧ ∃ C s, readBM u B t = ok (C, s) ∧ s.fail = true := by
  refine ⟨_, showBM_ok h, ?_⟩
  obtain ⟨m, rfl⟩ : ∃ k, m = k + 1 := ⟨m - 1, by omega⟩
  rw [List.ofFn_succ]
  have hnl : '\n' ∉ List.intersperse ' ' (bitChars (M 0)) := by
    have hd : ∀ l : List Char, '\n' ∈ List.intersperse ' ' l → '\n' ∈ l := by
      intro l
      induction l with
      | nil => simp
      | cons a l ih =>
        cases l with
        | nil => simp
        | cons b l =>
          simp only [List.intersperse_cons₂, List.mem_cons] at ih ⊢
          rintro (h | h | h)
          · exact .inl h
          · cases h
          · exact .inr (ih h)
    intro hc
    have := hd _ hc
    simp only [bitChars, List.mem_map] at this
    obtain ⟨b, _, hb⟩ := this
    split_ifs at hb <;> exact absurd hb (by decide)
  have := C97_matrix_long_line (u := u) hB (els := []) (by simp) .nil hnl (by rw [length_intersperse, bitChars_length]; omega)
    ('\n' :: lines (List.ofFn fun i : Fin m => List.intersperse ' ' (bitChars (M i.succ))))
  simpa [lines] using this

/-- C97, violated: a last line that does not end with a newline is lost.  If it is not the only row, the matrix of the
others is read and no failure is reported. -/
theorem C97_violated_last_line {u : BitVec 64} {A : BM} (hA : A.num_rows = 0) {ls : List (List Char)} {xss : List (List ℤ)}
    (hls : List.Forall₂ BitLine ls xss) (hne : xss ≠ []) {c : ℕ} (hc : ∀ xs ∈ xss, xs.length = c) {l : List Char} {ys : List ℤ}
    (hl : BitLine l ys) : ∃ B, readBM u A (lines ls ++ l) = ok (B, ⟨[], true, false⟩) ∧ BM.Rep B (matOf xss.length c xss) := by
  have := C97_matrix_read (u := u) hA (els := []) (by simp) hls hne hc (tail := l) (.inl ⟨hl.1, hl.2.1, rfl⟩)
  simpa [lines] using this

/-- C97, violated: white space between a row and the comment after it, or the end of the line, makes the matrix be
refused. -/
theorem C97_violated_comment {u : BitVec 64} {A : BM} (hA : A.num_rows = 0) {ls : List (List Char)} {xss : List (List ℤ)}
    (hls : List.Forall₂ BitLine ls xss) {body ws cm : List Char} {ys : List ℤ} (hb : IntSeq body ys) (hbh : '#' ∉ body) (hbn : '\n' ∉ body)
    (hw : ws ≠ []) (hs : ∀ c ∈ ws, c = ' ' ∨ c = '\t') (hcm : cm = [] ∨ cm.head? = some '#') (hcn : '\n' ∉ cm)
    (hlen : (body ++ ws ++ cm).length < 8192) (rest : List Char) :
    ∃ B, readBM u A (lines ls ++ (body ++ ws ++ cm ++ '\n' :: rest)) = ok (B, ⟨rest, false, true⟩) := by
  have hsp : ∀ c ∈ ws, isSpace c = true := fun c hc => by rcases hs c hc with rfl | rfl <;> rfl
  have htake : (body ++ ws ++ cm).takeWhile (· ≠ '#') = body ++ ws := by
    refine takeWhile_hash ?_ hcm
    simp only [List.mem_append, not_or]
    exact ⟨hbh, fun h => by rcases hs _ h with h | h <;> cases h⟩
  have hnl : '\n' ∉ body ++ ws ++ cm := by
    simp only [List.mem_append, not_or]
    exact ⟨⟨hbn, fun h => by rcases hs _ h with h | h <;> cases h⟩, hcn⟩
  have := C97_matrix_bad_row (u := u) hA (els := []) (by simp) hls (l := body ++ ws ++ cm) hnl hlen
    (by
      rintro ⟨_, _, h⟩
      rw [htake] at h
      obtain ⟨v, e, rfl, he⟩ := hb.last_dig
      have := h e (by simp)
      rw [dig_not_space he] at this
      cases this)
    (by
      rintro ⟨xs, _, _, h⟩
      rw [htake] at h
      exact intSeq_trailing hw hsp ⟨xs, h⟩) rest
  simpa [lines] using this

/-- C97, violated: the number of rows is not reset.  A matrix that has rows, as one that was read before, cannot be read
into: rows are refused, -/
theorem C97_violated_reread {u : BitVec 64} {A : BM} (h1 : 1 ≤ A.num_rows) (h2 : A.num_rows ≤ 40) {ls : List (List Char)}
    {xss : List (List ℤ)} (hls : List.Forall₂ BitLine ls xss) (hne : xss ≠ []) {tail : List Char} {s : IStream} (ht : RowsEnd tail s) :
    ∃ B s', readBM u A (lines ls ++ tail) = ok (B, s') ∧ s'.fail = true := by
  have hl := length_lines ls
  have hlen : (List.replicate A.num_rows ([] : List ℤ)).length = A.num_rows := by simp
  obtain ⟨t, e1, e2⟩ := bmLoop_rows (u := u) hls ((lines ls ++ tail).length + 1) _ _ tail (heldAll_fresh h2) (by simp; omega)
  obtain ⟨n, hn⟩ : ∃ n, (lines ls ++ tail).length + 1 - ls.length = n + 1 := ⟨(lines ls ++ tail).length - ls.length, by simp; omega⟩
  rw [hn, hlen] at e2
  have hne' : List.replicate A.num_rows [] ++ xss ≠ [] := by simp [hne]
  obtain ⟨t', s', e3, e4⟩ : ∃ t' s', HeldAll t' (List.replicate A.num_rows [] ++ xss) ∧
      bmLoop u (n + 1) (List.replicate A.num_rows [] ++ xss).length t tail = ok ((List.replicate A.num_rows [] ++ xss).length, t', s', .done) := by
    rcases ht with ⟨f1, f2, rfl⟩ | ⟨e, rest, rfl, hb, rfl⟩
    · obtain ⟨t', h3, h4⟩ := bmLoop_end (u := u) (n := n) e1 f1 f2
      exact ⟨t', _, h3, h4⟩
    · obtain ⟨t', h3, h4⟩ := bmLoop_blank (u := u) (n := n) e1 hb rest
      rw [if_neg hne'] at h4
      exact ⟨t', _, h3, h4⟩
  have hb := row_bounds hls
  obtain ⟨B, s'', h3, _, h4⟩ := readBM_done (e2.trans e4) e3 hne' (by
    intro xs hx
    rcases List.mem_append.1 hx with hx | hx
    · rw [List.eq_of_mem_replicate hx]; simp
    · have := (hb xs hx).2; omega)
  refine ⟨B, s'', h3, ?_⟩
  obtain ⟨x0, hx0⟩ := List.exists_mem_of_ne_nil _ hne
  rw [h4 ?_]
  rintro ⟨c, hc⟩
  have a1 := hc [] (List.mem_append_left _ (List.mem_replicate.2 ⟨by omega, rfl⟩))
  have a2 := hc x0 (List.mem_append_right _ hx0)
  simp only [List.length_nil] at a1
  exact (hb _ hx0).1 (List.length_eq_zero_iff.1 (by omega))

/-- C97, violated: an empty line, or the end of the text, yields a matrix of as many rows without columns, and no failure, -/
theorem C97_violated_reread_blank {u : BitVec 64} {A : BM} (h1 : 1 ≤ A.num_rows) (h2 : A.num_rows ≤ 40) {tail : List Char} {s : IStream}
    (ht : RowsEnd tail s) : ∃ B, readBM u A tail = ok (B, s) ∧ B.num_rows = A.num_rows ∧ B.num_cols = 0 := by
  have hlen : (List.replicate A.num_rows ([] : List ℤ)).length = A.num_rows := by simp
  have hne' : List.replicate A.num_rows ([] : List ℤ) ≠ [] := by
    intro h; have := congrArg List.length h; simp at this; omega
  obtain ⟨t', s', rfl, e3, e4⟩ : ∃ t' s', afterPeek s' = s ∧ HeldAll t' (List.replicate A.num_rows []) ∧
      bmLoop u (tail.length + 1) (List.replicate A.num_rows ([] : List ℤ)).length (List.replicate 40 BV.empty) tail =
        ok ((List.replicate A.num_rows ([] : List ℤ)).length, t', s', .done) := by
    rcases ht with ⟨f1, f2, rfl⟩ | ⟨e, rest, rfl, hb, rfl⟩
    · obtain ⟨t', h3, h4⟩ := bmLoop_end (u := u) (n := tail.length) (heldAll_fresh h2) f1 f2
      exact ⟨t', _, afterPeek_end, h3, h4⟩
    · obtain ⟨t', h3, h4⟩ := bmLoop_blank (u := u) (n := (e ++ '\n' :: rest).length) (heldAll_fresh h2) hb rest
      rw [if_neg hne'] at h4
      exact ⟨t', _, afterPeek_rest rest, h3, h4⟩
  obtain ⟨B, s'', h3, h4, _⟩ := readBM_done (A := A) (u := u) (cs := tail) (rs := t') (by rw [hlen] at e4 ⊢; exact e4) e3 hne' (by
    intro xs hx; rw [List.eq_of_mem_replicate hx]; simp)
  obtain ⟨rfl, rfl⟩ := h4 0 (by intro xs hx; rw [List.eq_of_mem_replicate hx]; simp)
  exact ⟨_, h3, hlen, rfl⟩

theorem loopUp_add {σ : Type} (body : ℕ → σ → Res σ) : ∀ (a b lo : ℕ) (s : σ),
    loopUp body (a + b) lo s = (loopUp body a lo s >>= fun t => loopUp body b (lo + a) t)
  | 0, b, lo, s => by simp [loopUp]
  | a + 1, b, lo, s => by
    rw [Nat.succ_add, loopUp, loopUp]
    cases h : body lo s with
    | ok t => simp only [ok_bind]; rw [loopUp_add body a b (lo + 1) t, Nat.add_assoc, Nat.add_comm 1 a]
    | throw => rfl
    | ub => rfl
    | timeout => rfl

/-- C97, violated: and if there were more than 40 rows, rows outside of the new array are copied, whatever the text. -/
theorem C97_violated_reread_many {u : BitVec 64} {A : BM} (h : 40 < A.num_rows) (cs : List Char) : readBM u A cs = ub := by
  have hm : moreRows (List.replicate 40 BV.empty) A.num_rows = ub := by
    obtain ⟨t, h1, _⟩ := moreRows_ok (heldAll_fresh (le_refl 40))
    rw [List.length_replicate] at h1
    obtain ⟨k, hk⟩ : ∃ k, A.num_rows = 40 + (k + 1) := ⟨A.num_rows - 41, by omega⟩
    unfold moreRows forUp at h1 ⊢
    rw [hk, Nat.sub_zero, loopUp_add]
    rw [Nat.sub_zero] at h1
    rw [h1, ok_bind, loopUp]
    rfl
  unfold readBM
  rw [bmLoop, if_pos (by simp; omega), hm]
  rfl

/-! ### Examples -/

example : readBit 6 false " -3 x".toList = (true, ⟨" x".toList, false, false⟩) := by decide +kernel
example : (readBit 6 false "x".toList).2.fail = true ∧ (readBit 6 false "4294967296".toList).2.fail = true := by decide +kernel
example : bitFromString "5x".toList = some true ∧ bitFromString "".toList = none := by decide +kernel
example : (readBV 7#64 "1 0 3 -2+1".toList) =
    ok (⟨false, 0xa800000000000000#64 :: List.replicate 7 0#64, 1, 5⟩, ⟨[], true, false⟩) := by decide +kernel
example : IntSeq "1 -2+3".toList [1, -2, 3] := by
  refine .more (tail := " -2+3".toList) ⟨[], ['1'], ?_, ?_, ?_, ?_, .inl ⟨rfl, ?_⟩⟩ (by decide)
    (.more (tail := "+3".toList) ⟨[' '], ['2'], ?_, ?_, ?_, ?_, .inr (.inr ⟨rfl, ?_⟩)⟩ (by decide)
      (.last ⟨[], ['3'], ?_, ?_, ?_, ?_, .inr (.inl ⟨rfl, ?_⟩)⟩ (by decide))) <;> decide
example : (readBM 7#64 BM.empty "\n1 0\n0 1#c\n\n1".toList) = ok (⟨2, 2, [
    ⟨false, 0x8000000000000000#64 :: List.replicate 7 0#64, 1, 2⟩,
    ⟨false, 0x4000000000000000#64 :: List.replicate 7 0#64, 1, 2⟩]⟩, ⟨['1'], false, false⟩) := by decide +kernel
example : showBM ⟨2, 2, [⟨false, [0x8000000000000000#64], 1, 2⟩, ⟨false, [0x4000000000000000#64], 1, 2⟩]⟩ =
    ok "1 0\n0 1\n".toList := by decide +kernel
example : (readBM 7#64 ⟨2, 2, []⟩ "1 0\n0 1\n".toList).bind (fun r => ok r.2) = ok ⟨[], true, true⟩ := by decide +kernel

end BText97
end Spffl.Props
