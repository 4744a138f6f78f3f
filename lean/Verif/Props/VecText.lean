import Verif.Proof.VecText
import Verif.Props.PolyText3

/-!
# C94: vectors and matrices as text

First for any element type that satisfies `EltSpec`, then the element types.
-/

namespace Spffl.Props
namespace VText94
open Res Spffl.Scan Spffl.PText Spffl.VText

section General
variable {α R : Type} [Zero R] {E : EltIO α} {rep : α → R → Prop} {Text : List Char → R → Prop} {U : Prop}

/-! ### Vectors -/

/-- C94: elements with blanks between them are read into any vector that has an element, all of them and in order; the
stream is then at its end. -/
theorem C94_vector_read (H : EltSpec U E rep Text) {e : α} (he : (E.sub e e).Sat U fun z => rep z 0) {v : List α} {cs : List Char}
    {xs : List R} (h : VecText Text cs xs) {n : ℕ} (hn : xs.length < n) : (readVec E n (e :: v) cs).Sat U fun r =>
      List.Forall₂ rep r.1 xs ∧ r.2 = ⟨[], true, false⟩ :=
  readVec_yes H he h hn

/-- C94: reading stops at the first element that is refused; the failure bit is set and the elements before are kept. -/
theorem C94_vector_refused (H : EltSpec U E rep Text) {e : α} (he : (E.sub e e).Sat U fun z => rep z 0) {v : List α}
    {cs rest : List Char} {xs : List R}
    (h : (cs = [] ∧ xs = []) ∨ (VecText Text cs xs ∧ rest ≠ [] ∧ ∀ c ∈ rest.head?, blank c = true))
    (hr : ∀ z, rep z 0 → (E.read z rest).Sat U fun r => r.2.fail = true) {n : ℕ} (hn : xs.length < n) :
    (readVec E n (e :: v) (cs ++ rest)).Sat U fun r => List.Forall₂ rep r.1 xs ∧ r.2.fail = true :=
  readVec_stop H he h hr hn

/-- C94, violated: with blanks after the last element, or nothing but blanks, the elements are read but the stream has
failed. -/
theorem C94_violated_trailing_blank (H : EltSpec U E rep Text) {e : α} (he : (E.sub e e).Sat U fun z => rep z 0) {v : List α}
    {cs ws : List Char} {xs : List R} (h : (cs = [] ∧ xs = []) ∨ (VecText Text cs xs ∧ ws ≠ [])) (hw : ∀ c ∈ ws, blank c = true)
    {n : ℕ} (hn : xs.length < n) :
    (readVec E n (e :: v) (cs ++ ws)).Sat U fun r => List.Forall₂ rep r.1 xs ∧ r.2.fail = true :=
  readVec_stop H he (h.imp_right fun h => ⟨h.1, h.2, fun c hc => hw c (List.mem_of_mem_head? hc)⟩) (fun z hz => H.blanks hz hw) hn

/-- C94: a vector without elements cannot be read into. -/
theorem C94_vector_no_zero (n : ℕ) (cs : List Char) : readVec E n [] cs = ok ([], ⟨cs, false, true⟩) := rfl

/-- C94: what is printed of a vector is read back as the same elements. -/
theorem C94_vector_round_trip (H : EltSpec U E rep Text) {e : α} (he : (E.sub e e).Sat U fun z => rep z 0) {w v : List α} {xs : List R}
    (hv : List.Forall₂ rep v xs) (hne : v ≠ []) : ∃ t, showVec E v = ok t ∧ ∀ n, xs.length < n →
      (readVec E n (e :: w) t).Sat U fun r => List.Forall₂ rep r.1 xs ∧ r.2 = ⟨[], true, false⟩ := by
  obtain ⟨t, h1, h2, _⟩ := showVec_ok H hv hne
  exact ⟨t, h1, fun n hn => readVec_yes H he h2 hn⟩

/-- C94: from a general stream one line is read, and the rest left. -/
theorem C94_vector_line (H : EltSpec U E rep Text) {e : α} (he : (E.sub e e).Sat U fun z => rep z 0) {v : List α} {l rest : List Char}
    {xs : List R} (h : VecText Text l xs) (hl : '\n' ∉ l) (hlen : l.length < 2048) {n : ℕ} (hn : xs.length < n) :
    (readVecLine E n (e :: v) (l ++ '\n' :: rest)).Sat U fun r => List.Forall₂ rep r.1 xs ∧ r.2 = ⟨rest, false, false⟩ := by
  unfold readVecLine
  rw [getLine_line hl hlen]
  dsimp only
  refine (readVec_yes H he h hn).bind fun r hr => ?_
  rw [hr.2]
  exact ⟨hr.1, rfl⟩

/-- C94: a line of 2048 characters or more is refused, however it ends. -/
theorem C94_vector_line_too_long {v w : List α} {l rest : List Char} {n : ℕ} (hl : '\n' ∉ l) (hlen : 2048 ≤ l.length) {s : IStream}
    (h : readVecLine E n v (l ++ rest) = ok (w, s)) : s.fail = true := by
  have ht : 2048 ≤ ((l ++ rest).takeWhile (· ≠ '\n')).length := by
    rw [List.takeWhile_append_of_pos (by intro a ha; simp only [ne_eq, decide_eq_true_eq]; rintro rfl; exact hl ha)]
    simp; omega
  unfold readVecLine getLine at h
  dsimp only at h
  rw [if_neg (by omega)] at h
  revert h
  cases readVec E n v _ with
  | ok r => intro h; simp only [ok_bind, ok.injEq, Prod.mk.injEq] at h; rw [← h.2]; simp
  | _ => intro h; cases h

/-- C94: `bracket_in` reads what is between the first `[` and the last `]`.  What is before and after is ignored. -/
theorem C94_vector_bracket (H : EltSpec U E rep Text) {e : α} (he : (E.sub e e).Sat U fun z => rep z 0) {v : List α}
    {pre body post : List Char} {xs : List R} (h1 : '[' ∉ pre) (h2 : ']' ∉ post) (h : VecText Text body xs) {n : ℕ}
    (hn : xs.length < n) : (vecBracket E n (e :: v) (pre ++ '[' :: (body ++ ']' :: post))).Sat U fun o =>
      ∃ w, o = some w ∧ List.Forall₂ rep w xs := by
  rw [vecBracket_eq n _ h1 h2]
  refine (readVec_yes H he h hn).bind fun r hr => ?_
  rw [hr.2]
  exact ⟨_, rfl, hr.1⟩

/-- C94: without brackets it returns `false`. -/
theorem C94_vector_bracket_missing {v : List α} {n : ℕ} {cs : List Char}
    (h : '[' ∉ cs ∨ ∃ pre r, cs = pre ++ '[' :: r ∧ '[' ∉ pre ∧ ']' ∉ r) : vecBracket E n v cs = ok none := by
  unfold vecBracket
  rcases h with h | ⟨pre, r, rfl, h1, h2⟩
  · have : cs.dropWhile (· ≠ '[') = [] := by
      rw [List.dropWhile_eq_nil_iff]; intro a ha; simp only [ne_eq, decide_eq_true_eq]; rintro rfl; exact h ha
    rw [this]
  · rw [dropWhile_ne h1]
    dsimp only
    rw [if_neg h2]

/-! ### Matrices -/

/-- C94: lines without content are skipped, then rows are read, one a line, up to the end of the text or to a line without
content.  If they all have the same number of elements the matrix consists of them, and the stream is after that line. -/
theorem C94_matrix_read (H : EltSpec U E rep Text) {A : TMat α} (hA : Primed U E rep A) {k d0 d1 c : ℕ} {els ls : List (List Char)}
    {xss : List (List R)} (hels : Empties 0 els d0) (hls : Rows Text d0 ls xss d1) (hne : xss ≠ []) (hk : c < k)
    (hc : ∀ xs ∈ xss, xs.length = c) {tail : List Char} {s : IStream} (ht : Tail d1 tail s) :
    (readMat E k A (lines els ++ (lines ls ++ tail))).Sat U fun r => MRep rep r.1 xss ∧ r.2 = s :=
  (readMat_sat H hA hels hls hne (fun xs hx => by rw [hc xs hx]; exact hk) ht).mono fun _ hr => hr.1 ⟨c, hc⟩

/-- C94: rows of different lengths are refused. -/
theorem C94_matrix_ragged (H : EltSpec U E rep Text) {A : TMat α} (hA : Primed U E rep A) {k d0 d1 : ℕ} {els ls : List (List Char)}
    {xss : List (List R)} (hels : Empties 0 els d0) (hls : Rows Text d0 ls xss d1) (hk : ∀ xs ∈ xss, xs.length < k) {xs ys : List R}
    (hx : xs ∈ xss) (hy : ys ∈ xss) (hxy : xs.length ≠ ys.length) {tail : List Char} {s : IStream} (ht : Tail d1 tail s) :
    (readMat E k A (lines els ++ (lines ls ++ tail))).Sat U fun r => r.2.fail = true :=
  (readMat_sat H hA hels hls (by rintro rfl; simp at hx) hk ht).mono fun _ hr => hr.2 fun ⟨c, hc⟩ => hxy ((hc xs hx).trans (hc ys hy).symm)

/-- C94: a row that cannot be read is refused, and the stream is left after it. -/
theorem C94_matrix_bad_row (H : EltSpec U E rep Text) {A : TMat α} (hA : Primed U E rep A) {k d0 d1 : ℕ} {els ls : List (List Char)}
    {xss : List (List R)} (hels : Empties 0 els d0) (hls : Rows Text d0 ls xss d1) (hk : ∀ xs ∈ xss, xs.length < k)
    {l : List Char} (hl : '\n' ∉ l) (hfit : d1 + l.length + 1 ≤ bufSize)
    {t : List Char} (htl : t = (((l.takeWhile (· ≠ '#')).dropWhile isSpace).reverse.dropWhile isSpace).reverse)
    (hsp : t.all isSpace = false) (hbad : ∀ z, rep z 0 → (readVec E k [z] t).Sat U fun r => r.2.fail = true) (rest : List Char) :
    (readMat E k A (lines els ++ (lines ls ++ (l ++ '\n' :: rest)))).Sat U fun r => r.2 = ⟨rest, false, true⟩ :=
  readMat_bad H hA hels hls hk hl hfit htl hsp hbad rest

/-- C94: a text without rows is refused. -/
theorem C94_matrix_no_rows {A : TMat α} (hA : Primed U E rep A) {k d0 : ℕ} {els : List (List Char)} (hels : Empties 0 els d0)
    {tail : List Char} (ht : '\n' ∉ tail) (hfit : d0 + tail.length + 1 ≤ bufSize) :
    (readMat E k A (lines els ++ tail)).Sat U fun r => r.1 = ⟨0, 0, []⟩ ∧ r.2 = ⟨[], true, true⟩ := by
  obtain ⟨hA1, hA2, hA3, e, hA4, hA5⟩ := hA
  unfold readMat
  rw [if_neg (by rintro (h | h | h); exact hA1 h; omega; omega), hA4, ok_bind, ok_bind]
  refine hA5.bind fun z _ => ?_
  have hl1 := length_lines els
  obtain ⟨m, hm⟩ : ∃ m, (lines els ++ tail).length + 1 - els.length = m + 1 := ⟨(lines els ++ tail).length - els.length, by simp; omega⟩
  rw [matLoop_empties E hels _ _ (by simp; omega), hm]
  unfold matLoop
  rw [getLine_end ht (by omega)]
  dsimp only
  rw [if_neg (by omega), if_pos rfl]
  exact ⟨rfl, rfl⟩

/-- C94: a matrix without elements cannot be read into. -/
theorem C94_matrix_no_zero {A : TMat α} (h : A.rows = [] ∨ A.num_rows < 1 ∨ A.num_cols < 1) (k : ℕ) (cs : List Char) :
    readMat E k A cs = ok (A, ⟨cs, false, true⟩) ∧ matBracket E k A cs = ok none := by
  unfold readMat matBracket
  rw [if_pos h, if_pos h]
  exact ⟨rfl, rfl⟩

/-- C94: what is printed of a matrix is read back as the same matrix, also if an empty line and then anything follows; that
is left to be read. -/
theorem C94_matrix_round_trip (H : EltSpec U E rep Text) {A B : TMat α} (hB : Primed U E rep B) {xss : List (List R)}
    (hA : MRep rep A xss) (hr : 1 ≤ A.num_rows) (hc : 1 ≤ A.num_cols)
    (hfit : ∀ v ∈ A.rows, ∀ t, showVec E v = ok t → t.length < bufSize) {k : ℕ} (hk : A.num_cols < k) :
    ∃ t, showMat E A = ok t ∧ ((readMat E k B t).Sat U fun r => MRep rep r.1 xss ∧ r.2 = ⟨[], true, false⟩) ∧
      ∀ rest, (readMat E k B (t ++ '\n' :: rest)).Sat U fun r => MRep rep r.1 xss ∧ r.2 = ⟨rest, rest.isEmpty, false⟩ := by
  obtain ⟨ts, h1, h2, h3⟩ := showMat_ok H hA hc
  have hlen : ∀ t ∈ ts, t.length < bufSize := by
    clear h1 h2
    obtain ⟨us, hus⟩ : ∃ us, us = A.rows := ⟨_, rfl⟩
    rw [← hus] at h3 hfit
    clear hus
    induction h3 with
    | nil => simp
    | cons h _ ih =>
      intro t ht
      rcases List.mem_cons.1 ht with rfl | ht
      · exact hfit _ (by simp) _ h
      · exact ih (fun v hv => hfit v (by simp [hv])) t ht
  have hne : xss ≠ [] := by
    rintro rfl
    have := hA.1
    simp at this
    omega
  refine ⟨_, h1, ?_, fun rest => ?_⟩
  · have := C94_matrix_read H hB .nil (rows_of h2 hlen) hne hk hA.2.1 (tail := []) (Or.inl ⟨by simp, by unfold bufSize; simp, rfl⟩)
    simpa [lines] using this
  · have := C94_matrix_read H hB .nil (rows_of h2 hlen) hne hk hA.2.1 (tail := [] ++ '\n' :: rest)
      (Or.inr ⟨0, [], rest, rfl, ⟨[], [], rfl, rfl, by simp, Or.inl rfl, by simp⟩, by unfold bufSize; simp, rfl⟩)
    simpa [lines] using this

/-- C94, violated: a last line that does not end with a newline is lost.  If it is not the only row, the matrix of the
others is read and no failure is reported. -/
theorem C94_violated_last_line (H : EltSpec U E rep Text) {A : TMat α} (hA : Primed U E rep A) {k d1 c lead : ℕ}
    {ls : List (List Char)} {xss : List (List R)} (hls : Rows Text 0 ls xss d1) (hne : xss ≠ []) (hk : c < k)
    (hc : ∀ xs ∈ xss, xs.length = c) {l : List Char} {ys : List R} (hl : RowLine Text lead l ys) (hfit : d1 + l.length + 1 ≤ bufSize) :
    (readMat E k A (lines ls ++ l)).Sat U fun r => MRep rep r.1 xss ∧ r.2 = ⟨[], true, false⟩ := by
  have hnl : '\n' ∉ l := by obtain ⟨_, _, _, _, _, _, _, _, _, _, _, h⟩ := hl; exact h
  have := C94_matrix_read H hA .nil hls hne hk hc (tail := l) (Or.inl ⟨hnl, hfit, rfl⟩)
  simpa [lines] using this

/-- C94, violated: a line that holds only a comment ends the matrix, while a comment after a row does not. -/
theorem C94_violated_comment_line (H : EltSpec U E rep Text) {A : TMat α} (hA : Primed U E rep A) {k d1 c : ℕ}
    {ls : List (List Char)} {xss : List (List R)} (hls : Rows Text 0 ls xss d1) (hne : xss ≠ []) (hk : c < k)
    (hc : ∀ xs ∈ xss, xs.length = c) {cm : List Char} (hcm : '\n' ∉ cm) (hfit : d1 + cm.length + 2 ≤ bufSize) (rest : List Char) :
    (readMat E k A (lines ls ++ ('#' :: cm ++ '\n' :: rest))).Sat U fun r => MRep rep r.1 xss ∧ r.2 = ⟨rest, rest.isEmpty, false⟩ := by
  have := C94_matrix_read H hA .nil hls hne hk hc (tail := '#' :: cm ++ '\n' :: rest)
    (Or.inr ⟨0, '#' :: cm, rest, rfl, ⟨[], '#' :: cm, rfl, rfl, by simp, Or.inr rfl, by simp [hcm]⟩, by simp; omega, rfl⟩)
  simpa [lines] using this

/-- C94, violated: every line is read into the buffer as far behind its start as the lines before it had white space in
front.  A line that then does not fit is written outside of the buffer. -/
theorem C94_violated_drift (H : EltSpec False E rep Text) {A : TMat α} (hA : Primed False E rep A) {k d0 d1 : ℕ}
    {els ls : List (List Char)} {xss : List (List R)} (hels : Empties 0 els d0) (hls : Rows Text d0 ls xss d1)
    (hk : ∀ xs ∈ xss, xs.length < k) {l : List Char} (hl : '\n' ∉ l) (hfit : l.length < bufSize)
    (hbig : bufSize < d1 + l.length + 1) (rest : List Char) :
    readMat E k A (lines els ++ (lines ls ++ (l ++ '\n' :: rest))) = ub :=
  readMat_ub H hA hels hls hk hl hfit hbig rest

/-- C94: `bracket_in` with a bracketed row for each row of the matrix; rows of different lengths give `false`.  What is
before the first bracket, between the rows and after the last bracket is ignored. -/
theorem C94_matrix_bracket (H : EltSpec U E rep Text) {A : TMat α} (hA : Primed U E rep A) {n : ℕ} {pre bl post : List Char}
    {us : List (List Char × List Char)} {xss : List (List R)} (h1 : '[' ∉ pre) (h2 : ']' ∉ post) (h3 : ∀ c ∈ bl, c = ' ' ∨ c = '\t')
    (h : List.Forall₂ (fun u xs => VecText Text u.1 xs ∧ '[' ∉ u.2 ∧ ']' ∉ u.2) us xss) (hne : us ≠ []) (hn : ∀ xs ∈ xss, xs.length < n)
    (hlen : ∀ xs ∈ xss, xs.length ≤ 0x7fffffff) :
    (matBracket E n A (pre ++ '[' :: (bl ++ (us.map fun u => '[' :: (u.1 ++ ']' :: u.2)).flatten ++ ']' :: post))).Sat U fun o =>
      ((∃ c, ∀ xs ∈ xss, xs.length = c) → ∃ B, o = some B ∧ MRep rep B xss) ∧
      (¬ (∃ c, ∀ xs ∈ xss, xs.length = c) → o = none) :=
  matBracket_rows H hA h1 h2 h3 h hne hn hlen

/-- C94: with elements only, `bracket_in` makes a column of them. -/
theorem C94_matrix_column (H : EltSpec U E rep Text) {A : TMat α} (hA : Primed U E rep A) {n : ℕ} {pre bl body post : List Char}
    {xs : List R} (h1 : '[' ∉ pre) (h2 : ']' ∉ post) (h3 : ∀ c ∈ bl, c = ' ' ∨ c = '\t') (h4 : ∀ c ∈ body.head?, c ≠ ' ' ∧ c ≠ '\t')
    (h : VecText Text body xs) (hn : xs.length < n) :
    (matBracket E n A (pre ++ '[' :: (bl ++ body ++ ']' :: post))).Sat U fun o =>
      ∃ B, o = some B ∧ MRep rep B (xs.map ([·])) ∧ B.num_cols = 1 :=
  matBracket_col H hA h1 h2 h3 h4 h hn

/-- C94: `check_ragged` accepts exactly the rows of equal length. -/
theorem C94_check_ragged {rows : List (TVec α)} (hb : ∀ r ∈ rows, r.length ≤ 0x7fffffff) (c : ℕ) :
    checkRagged rows = some c ↔ rows ≠ [] ∧ ∀ r ∈ rows, r.length = c :=
  checkRagged_iff hb c

end General

/-! ### Examples: integers -/

example : readVec intIO 9 [7] "3 -4\t+50".toList = ok ([3, -4, 50], ⟨[], true, false⟩) := by decide +kernel
example : readVec intIO 9 [7] "3 -4 x 5".toList = ok ([3, -4], ⟨"x 5".toList, false, true⟩) := by decide +kernel
example : readVec intIO 9 [7] "3 -4 ".toList = ok ([3, -4], ⟨[], true, true⟩) := by decide +kernel
example : showVec intIO [3, -4, 50] = ok "3 -4 50".toList := by decide +kernel
example : readVecLine intIO 9 [7] "3 -4\n5 6".toList = ok ([3, -4], ⟨"5 6".toList, false, false⟩) := by decide +kernel
example : vecBracket intIO 9 [7] "v = [3 -4]; [5]x".toList = ok none ∧
    vecBracket intIO 9 [7] "v = [3 -4]x".toList = ok (some [3, -4]) ∧
    vecBracket intIO 9 [7] "v = 3 -4]x".toList = ok none := by decide +kernel
example : readMat intIO 9 ⟨1, 1, [[7]]⟩ "# a\n  \n 1 2 # b\n3 4\n\n5".toList =
    ok (⟨2, 2, [[1, 2], [3, 4]]⟩, ⟨['5'], false, false⟩) := by decide +kernel
example : readMat intIO 9 ⟨1, 1, [[7]]⟩ "1 2\n3 4".toList = ok (⟨1, 2, [[1, 2]]⟩, ⟨[], true, false⟩) := by decide +kernel
example : readMat intIO 9 ⟨1, 1, [[7]]⟩ "1 2\n# x\n3 4\n".toList =
    ok (⟨1, 2, [[1, 2]]⟩, ⟨"3 4\n".toList, false, false⟩) := by decide +kernel
example : readMat intIO 9 ⟨1, 1, [[7]]⟩ "1 2\n3\n".toList = ok (⟨2, 0, [[1, 2], [3]]⟩, ⟨[], true, true⟩) := by decide +kernel
example : readMat intIO 9 ⟨1, 1, [[7]]⟩ "1 2\n3 y\n5 6\n".toList = ok (⟨1, 0, [[1, 2]]⟩, ⟨"5 6\n".toList, false, true⟩) := by
  decide +kernel
example : readMat intIO 9 ⟨1, 1, [[7]]⟩ "\n\n".toList = ok (⟨0, 0, []⟩, ⟨[], true, true⟩) := by decide +kernel
example : showMat intIO ⟨2, 2, [[1, 2], [3, 4]]⟩ = ok "1 2\n3 4\n".toList := by decide +kernel
example : matBracket intIO 9 ⟨1, 1, [[7]]⟩ "A=[ [1 2], [3 4]];".toList = ok (some ⟨2, 2, [[1, 2], [3, 4]]⟩) ∧
    matBracket intIO 9 ⟨1, 1, [[7]]⟩ "A=[ [1 2], [3]];".toList = ok none ∧
    matBracket intIO 9 ⟨1, 1, [[7]]⟩ "[1 2 3]".toList = ok (some ⟨3, 1, [[1], [2], [3]]⟩) := by decide +kernel
example : checkRagged [[1, 2], [3, 4 + 1]] = some 2 ∧ checkRagged [[1, 2], [3]] = none ∧ checkRagged ([] : List (TVec ℕ)) = none := by
  decide +kernel

end VText94
end Spffl.Props
