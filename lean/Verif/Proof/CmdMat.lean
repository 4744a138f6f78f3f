import Verif.Model.CmdMat
import Verif.Proof.CmdPm
import Verif.Proof.ExprMat

/-!
# Commands on matrices: proofs
-/

namespace Spffl.Cmd
open Res Scan VText Expr

section
variable {α F : Type} [Field F] {O : TOps α} {E : EltIO α} {rep : α → F → Prop} {Text : List Char → F → Prop}
  {m n : ℕ} {zero one : α} {cs : List Char}

/-- A text holds a matrix: lines without content, one line for each row, and then an empty line, or no further line.  `st` is
the state of a stream that has been read this far. -/
def MatHolds (Text : List Char → F → Prop) (cs : List Char) (M : Matrix (Fin m) (Fin n) F) (st : IStream) : Prop :=
  0 < m ∧ ∃ els ls tail d0 d1, cs = lines els ++ (lines ls ++ tail) ∧ Empties 0 els d0 ∧ Rows Text d0 ls (rowsOf M) d1 ∧ Tail d1 tail st

/-- Rows of different lengths. -/
def Ragged (Text : List Char → F → Prop) (cs : List Char) : Prop :=
  ∃ els ls tail d0 d1 xss st, cs = lines els ++ (lines ls ++ tail) ∧ Empties 0 els d0 ∧ Rows Text d0 ls xss d1 ∧ Tail d1 tail st ∧
    ¬ ∃ c, ∀ xs ∈ xss, xs.length = c

/-- Nothing but lines without content, and possibly characters that are not ended by a newline. -/
def NoRows (cs : List Char) : Prop :=
  ∃ els tail d0, cs = lines els ++ tail ∧ Empties 0 els d0 ∧ '\n' ∉ tail ∧ d0 + tail.length + 1 ≤ bufSize

/-- `k` rows, and after them a line that is no row: `l` has content, and that is not read as a vector. -/
def BadRow (Text : List Char → F → Prop) (E : EltIO α) (rep : α → F → Prop) (k : ℕ) (cs : List Char) : Prop :=
  ∃ els ls l rest d0 d1 xss, cs = lines els ++ (lines ls ++ (l ++ '\n' :: rest)) ∧ Empties 0 els d0 ∧ Rows Text d0 ls xss d1 ∧ xss.length = k ∧
    '\n' ∉ l ∧ d1 + l.length + 1 ≤ bufSize ∧ (l.takeWhile (· ≠ '#')).all isSpace = false ∧
    ∀ z, rep z 0 → ∀ j, (readVec E (cs.length + j) [z] (((l.takeWhile (· ≠ '#')).dropWhile isSpace).reverse.dropWhile isSpace).reverse).Ok fun r => r.2.fail = true

theorem MatHolds.fail {M : Matrix (Fin m) (Fin n) F} {st : IStream} (h : MatHolds Text cs M st) : st.fail = false := by
  obtain ⟨-, _, _, _, _, _, -, -, -, h5⟩ := h
  rcases h5 with ⟨_, _, h5⟩ | ⟨_, _, _, _, _, _, h5⟩ <;> rw [h5]

theorem read_holds (S : EltSpec False E rep Text) (h0 : rep zero 0) {M : Matrix (Fin m) (Fin n) F} {st : IStream} (h : MatHolds Text cs M st) :
    ∃ A, readMat E (cs.length + 1) ⟨1, 1, [[zero]]⟩ cs = ok (A, st) ∧ MRep rep A M ∧ 0 < m ∧ 0 < n := by
  obtain ⟨hm, els, ls, tail, d0, d1, rfl, h1, h2, h3⟩ := h
  have hle := rows_le S h2
  have hn0 : 0 < n := by
    have := (hle (List.ofFn (M ⟨0, hm⟩)) (by simp only [rowsOf, List.mem_ofFn]; exact ⟨_, rfl⟩)).2
    simpa using this
  obtain ⟨⟨A, s⟩, e, k1, -⟩ := sat_false.1 (readMat_sat (k := (lines els ++ (lines ls ++ tail)).length + 1) S (primed_zero S h0) h1 h2 (rowsOf_ne hm M)
    (fun xs hx => by
      have := (hle xs hx).1
      simp only [List.length_append]
      omega) h3)
  obtain ⟨hB, rfl⟩ := k1 ⟨n, rowsOf_len⟩
  exact ⟨A, e, mat_rep hm hB, hm, hn0⟩

theorem read_ragged (S : EltSpec False E rep Text) (h0 : rep zero 0) (h : Ragged Text cs) :
    ∃ A s, readMat E (cs.length + 1) ⟨1, 1, [[zero]]⟩ cs = ok (A, s) ∧ s.fail = true ∧ A.num_rows ≠ A.num_cols := by
  obtain ⟨els, ls, tail, d0, d1, xss, st, rfl, hels, hls, ht, hno⟩ := h
  have hle := rows_le S hls
  have hne : xss ≠ [] := by rintro rfl; exact hno ⟨0, by simp⟩
  have hk : ∀ xs ∈ xss, xs.length < (lines els ++ (lines ls ++ tail)).length + 1 := fun xs hx => by
    have := (hle xs hx).1
    simp only [List.length_append]
    omega
  obtain ⟨hA1, hA2, hA3, e, hA4, hA5⟩ := primed_zero S h0
  have key : (readMat E ((lines els ++ (lines ls ++ tail)).length + 1) ⟨1, 1, [[zero]]⟩ (lines els ++ (lines ls ++ tail))).Sat False fun r =>
      r.2.fail = true ∧ r.1.num_rows ≠ r.1.num_cols := by
    unfold readMat
    rw [if_neg (by rintro (h | h | h); exact hA1 h; omega; omega), hA4, ok_bind, ok_bind]
    refine hA5.bind fun z hz => ?_
    have hl1 := length_lines els
    have hl2 := length_lines ls
    rw [matLoop_empties E hels _ _ (by simp; omega)]
    refine Sat.bind (P := fun r => ∃ us s', List.Forall₂ (List.Forall₂ rep) us xss ∧ r = (us, s', .done)) ?_ ?_
    · refine matLoop_rows S hz hls _ _ _ (by simp; omega) hk fun us hus => ?_
      have : us ≠ [] := by rintro rfl; cases hus; exact hne rfl
      obtain ⟨j, hj⟩ : ∃ j, (lines els ++ (lines ls ++ tail)).length + 1 - els.length - ls.length = j + 1 :=
        ⟨(lines els ++ (lines ls ++ tail)).length - els.length - ls.length, by simp; omega⟩
      rw [hj, List.nil_append]
      obtain ⟨s', h1, -⟩ := matLoop_tail E (k := (lines els ++ (lines ls ++ tail)).length + 1) (zero := z) (n := j) this ht
      rw [h1]
      exact ⟨us, s', hus, rfl⟩
    · rintro _ ⟨us, s', hus, rfl⟩
      have hune : us ≠ [] := by rintro rfl; cases hus; exact hne rfl
      have hlen := (hls.length_le S).2
      have hb : ∀ u ∈ us, u.length ≤ 0x7fffffff := (forall₂_len hus (· ≤ 0x7fffffff)).2 fun xs hx => by
        have := (hlen xs hx).1
        unfold bufSize at this
        omega
      unfold matFinish
      dsimp only
      rw [if_neg hune]
      cases hcr : checkRagged us with
      | none => exact ⟨rfl, by simpa using hune⟩
      | some c => exact absurd ⟨c, (forall₂_len hus (· = c)).1 ((checkRagged_iff hb c).1 hcr).2⟩ hno
  obtain ⟨⟨A, s⟩, k1, k2⟩ := sat_false.1 key
  exact ⟨A, s, k1, k2⟩

theorem read_bad_row (S : EltSpec False E rep Text) (h0 : rep zero 0) {k : ℕ} (h : BadRow Text E rep k cs) :
    ∃ A s, readMat E (cs.length + 1) ⟨1, 1, [[zero]]⟩ cs = ok (A, s) ∧ s.fail = true ∧ A.num_rows = k ∧ A.num_cols = 0 ∧ A.rows.length = k := by
  obtain ⟨els, ls, l, rest, d0, d1, xss, rfl, hels, hls, rfl, hl, hfit, hsp, hbad⟩ := h
  have hle := rows_le S hls
  have hk : ∀ xs ∈ xss, xs.length < (lines els ++ (lines ls ++ (l ++ '\n' :: rest))).length + 1 := fun xs hx => by
    have := (hle xs hx).1
    simp only [List.length_append]
    omega
  obtain ⟨hA1, hA2, hA3, e, hA4, hA5⟩ := primed_zero S h0
  have hsp' : ((((l.takeWhile (· ≠ '#')).dropWhile isSpace).reverse.dropWhile isSpace).reverse).all isSpace = false := by
    rw [← Bool.not_eq_true] at hsp ⊢
    intro h
    apply hsp
    rw [List.all_eq_true] at h ⊢
    intro c hc
    have hd := List.takeWhile_append_dropWhile (p := isSpace) (l := l.takeWhile (· ≠ '#'))
    rw [← hd, List.mem_append] at hc
    rcases hc with hc | hc
    · exact List.mem_takeWhile_imp hc
    · have hr := List.takeWhile_append_dropWhile (p := isSpace) (l := ((l.takeWhile (· ≠ '#')).dropWhile isSpace).reverse)
      rw [← List.mem_reverse, ← hr, List.mem_append] at hc
      rcases hc with hc | hc
      · exact List.mem_takeWhile_imp hc
      · exact h c (by rwa [List.mem_reverse])
  have key : (readMat E ((lines els ++ (lines ls ++ (l ++ '\n' :: rest))).length + 1) ⟨1, 1, [[zero]]⟩ (lines els ++ (lines ls ++ (l ++ '\n' :: rest)))).Sat False fun r =>
      r.2.fail = true ∧ r.1.num_rows = xss.length ∧ r.1.num_cols = 0 ∧ r.1.rows.length = xss.length := by
    unfold readMat
    rw [if_neg (by rintro (h | h | h); exact hA1 h; omega; omega), hA4, ok_bind, ok_bind]
    refine hA5.bind fun z hz => ?_
    have hl1 := length_lines els
    have hl2 := length_lines ls
    rw [matLoop_empties E hels _ _ (by simp; omega)]
    refine Sat.bind (P := fun r => r.2 = (⟨rest, false, true⟩, .early) ∧ r.1.length = xss.length) ?_ ?_
    · refine matLoop_rows S hz hls _ _ _ (by simp; omega) hk fun us hus => ?_
      obtain ⟨j, hj⟩ : ∃ j, (lines els ++ (lines ls ++ (l ++ '\n' :: rest))).length + 1 - els.length - ls.length = j + 1 :=
        ⟨(lines els ++ (lines ls ++ (l ++ '\n' :: rest))).length - els.length - ls.length, by simp; omega⟩
      rw [hj]
      unfold matLoop
      rw [getLine_line hl (by omega)]
      dsimp only
      rw [if_neg (by omega), if_neg (by simp), if_neg (by simp), if_neg (by rw [hsp']; simp)]
      refine (sat_false.2 (hbad z hz 1)).bind fun r hr => ?_
      rw [if_pos hr]
      exact ⟨rfl, by simpa using hus.length_eq⟩
    · rintro ⟨us, s, lf⟩ ⟨h, hu⟩
      cases h
      exact ⟨rfl, hu, rfl, hu⟩
  obtain ⟨⟨A, s⟩, k1, k2⟩ := sat_false.1 key
  exact ⟨A, s, k1, k2⟩

theorem read_none (S : EltSpec False E rep Text) (h0 : rep zero 0) (h : NoRows cs) :
    ∃ s, readMat E (cs.length + 1) ⟨1, 1, [[zero]]⟩ cs = ok (⟨0, 0, []⟩, s) ∧ s.fail = true := by
  obtain ⟨els, tail, d0, rfl, hels, ht, hfit⟩ := h
  obtain ⟨hA1, hA2, hA3, e, hA4, hA5⟩ := primed_zero S h0
  have key : (readMat E ((lines els ++ tail).length + 1) ⟨1, 1, [[zero]]⟩ (lines els ++ tail)).Sat False fun r => r.1 = ⟨0, 0, []⟩ ∧ r.2.fail = true := by
    unfold readMat
    rw [if_neg (by rintro (h | h | h); exact hA1 h; omega; omega), hA4, ok_bind, ok_bind]
    refine hA5.bind fun z _ => ?_
    have hl1 := length_lines els
    obtain ⟨j, hj⟩ : ∃ j, (lines els ++ tail).length + 1 - els.length = j + 1 := ⟨(lines els ++ tail).length - els.length, by simp; omega⟩
    rw [matLoop_empties E hels _ _ (by simp; omega), hj]
    unfold matLoop
    rw [getLine_end ht (by omega)]
    dsimp only
    rw [if_neg (by omega), if_pos rfl]
    exact ⟨rfl, rfl⟩
  obtain ⟨⟨A, s⟩, k1, rfl, k2⟩ := sat_false.1 key
  exact ⟨s, k1, k2⟩

/-! ### Orders -/

variable (H : EltRef False O rep)
include H

theorem ordLoop_prints {A I : TMat α} {M : Matrix (Fin n) (Fin n) F} (hn : 0 < n) (hA : MRep rep A M) (hI : MRep rep I (1 : Matrix (Fin n) (Fin n) F))
    (hmax : orderOf M ≤ 2147483647) (j : ℕ) : ∀ (k i : ℕ) (B : TMat α), MRep rep B (M ^ i) → 1 ≤ i → i + j = orderOf M → j < k →
      Prints (matOrdLoop O A I k i B) (showInt (orderOf M) ++ ['\n']) () := by
  induction j with
  | zero =>
    intro k i b hb hi hj hk
    obtain ⟨k, rfl⟩ : ∃ l, k = l + 1 := ⟨k - 1, by omega⟩
    obtain ⟨e, k1, k2⟩ := sat_false.1 (meq_sat H hb hI)
    have he : e = true := k2.2 (by rw [show i = orderOf M by omega]; exact pow_orderOf_eq_one M)
    subst he
    rw [show (orderOf M : Int) = i by omega]
    exact (prints_lift k1).then (outLine_prints _)
  | succ j ih =>
    intro k i b hb hi hj hk
    obtain ⟨k, rfl⟩ : ∃ l, k = l + 1 := ⟨k - 1, by omega⟩
    obtain ⟨e, k1, k2⟩ := sat_false.1 (meq_sat H hb hI)
    have he : e = false := by
      by_contra hne
      exact pow_ne_one_of_lt_orderOf (by omega) (by omega : i < orderOf M) (k2.1 (by simpa using hne))
    subst he
    obtain ⟨c, k3, k4⟩ := sat_false.1 (mul_sat' H hn hn hn hb hA)
    have k5 : iadd (i : Int) 1 = ok ((i + 1 : ℕ) : Int) := by
      unfold iadd
      rw [chk_ok (by unfold InInt; omega)]
      push_cast
      rfl
    refine (prints_lift k1).then ?_
    exact (prints_lift k3).then ((prints_lift k5).then (ih k (i + 1) c (by rw [pow_succ]; exact k4) (by omega) (by omega) (by omega)))

theorem ordLoop_ub {A I : TMat α} {M : Matrix (Fin n) (Fin n) F} (hn : 0 < n) (hA : MRep rep A M) (hI : MRep rep I (1 : Matrix (Fin n) (Fin n) F))
    (hmax : 2147483647 < orderOf M) (j : ℕ) : ∀ (k i : ℕ) (B : TMat α), MRep rep B (M ^ i) → 1 ≤ i → i + j = 2147483647 → j < k →
      IsUb (matOrdLoop O A I k i B) := by
  have step : ∀ (k i : ℕ) (b : TMat α), MRep rep b (M ^ i) → 1 ≤ i → i ≤ 2147483647 → ∃ c, MRep rep c (M ^ (i + 1)) ∧
      matOrdLoop O A I (k + 1) i b = (lift (iadd i 1) >>= fun o => matOrdLoop O A I k o c) := by
    intro k i b hb hi hi'
    obtain ⟨e, k1, k2⟩ := sat_false.1 (meq_sat H hb hI)
    have he : e = false := by
      by_contra hne
      exact pow_ne_one_of_lt_orderOf (by omega) (by omega : i < orderOf M) (k2.1 (by simpa using hne))
    subst he
    obtain ⟨c, k3, k4⟩ := sat_false.1 (mul_sat' H hn hn hn hb hA)
    refine ⟨c, by rw [pow_succ]; exact k4, ?_⟩
    exact (skip (prints_lift k1) _).trans (skip (prints_lift k3) _)
  induction j with
  | zero =>
    intro k i b hb hi hj hk
    obtain ⟨k, rfl⟩ : ∃ l, k = l + 1 := ⟨k - 1, by omega⟩
    obtain ⟨c, -, e⟩ := step k i b hb hi (by omega)
    rw [e]
    refine (ub_lift ?_).bind
    unfold iadd
    exact chk_ub (by unfold InInt; omega)
  | succ j ih =>
    intro k i b hb hi hj hk
    obtain ⟨k, rfl⟩ : ∃ l, k = l + 1 := ⟨k - 1, by omega⟩
    obtain ⟨c, hc, e⟩ := step k i b hb hi (by omega)
    have k5 : iadd (i : Int) 1 = ok ((i + 1 : ℕ) : Int) := by
      unfold iadd
      rw [chk_ok (by unfold InInt; omega)]
      push_cast
      rfl
    rw [e, skip (prints_lift k5)]
    exact ih k (i + 1) c hc (by omega) (by omega) (by omega)

variable (S : EltSpec False E rep Text) (h0 : rep zero 0)
include S h0

/-- A singular matrix. -/
theorem matOrd_singular {M : Matrix (Fin n) (Fin n) F} {st : IStream} (h : MatHolds Text cs M st) (hd : M.det = 0) (k : ℕ) :
    Prints (matOrd O E k zero one cs) ['0', '\n'] () := by
  obtain ⟨A, e, hA, hn, -⟩ := read_holds S h0 h
  obtain ⟨d, e1, e2⟩ := sat_false.1 (det_sat H hn hA)
  obtain ⟨b, e3, e4⟩ := sat_false.1 (H.eq e2 h0)
  obtain rfl : b = true := e4.2 hd
  exact (prints_lift e).then ((prints_lift e1).then ((prints_lift e3).then (outLine_prints _)))

theorem matOrd_regular (h1 : rep one 1) {M : Matrix (Fin n) (Fin n) F} {st : IStream} (h : MatHolds Text cs M st) (hd : M.det ≠ 0) (k : ℕ) :
    ∃ A I, MRep rep A M ∧ MRep rep I (1 : Matrix (Fin n) (Fin n) F) ∧ 0 < n ∧ matOrd O E k zero one cs = matOrdLoop O A I k 1 A := by
  obtain ⟨A, e, hA, hn, -⟩ := read_holds S h0 h
  obtain ⟨d, e1, e2⟩ := sat_false.1 (det_sat H hn hA)
  obtain ⟨b, e3, e4⟩ := sat_false.1 (H.eq e2 h0)
  obtain rfl : b = false := by
    by_contra hb
    exact hd (e4.1 (by simpa using hb))
  obtain ⟨I, e5, e6⟩ := sat_false.1 (make_I_sat (U := False) hA h0 h1)
  refine ⟨A, I, hA, e6, hn, ?_⟩
  exact (skip (prints_lift e) _).trans ((skip (prints_lift e1) _).trans ((skip (prints_lift e3) _).trans (skip (prints_lift e5) _)))

/-- A matrix of finite order. -/
theorem matOrd_prints (h1 : rep one 1) {M : Matrix (Fin n) (Fin n) F} {st : IStream} (h : MatHolds Text cs M st) (hd : M.det ≠ 0) (hf : 0 < orderOf M)
    (hmax : orderOf M ≤ 2147483647) {k : ℕ} (hk : orderOf M ≤ k) : Prints (matOrd O E k zero one cs) (showInt (orderOf M) ++ ['\n']) () := by
  obtain ⟨A, I, hA, hI, hn, e⟩ := matOrd_regular H S h0 h1 h hd k
  rw [e]
  exact ordLoop_prints H hn hA hI hmax (orderOf M - 1) k 1 A (by simpa using hA) le_rfl (by omega) (by omega)

/-- A matrix whose order is no `int`. -/
theorem matOrd_ub (h1 : rep one 1) {M : Matrix (Fin n) (Fin n) F} {st : IStream} (h : MatHolds Text cs M st) (hd : M.det ≠ 0)
    (hmax : 2147483647 < orderOf M) {k : ℕ} (hk : 2147483647 ≤ k) : IsUb (matOrd O E k zero one cs) := by
  obtain ⟨A, I, hA, hI, hn, e⟩ := matOrd_regular H S h0 h1 h hd k
  rw [e]
  exact ordLoop_ub H hn hA hI hmax 2147483646 k 1 A (by simpa using hA) le_rfl (by omega) (by omega)

omit H in
/-- A matrix that is not square, rows of different lengths, and a bad row after another. -/
theorem matOrd_throws (h : (∃ (m n : ℕ) (M : Matrix (Fin m) (Fin n) F) (st : IStream), m ≠ n ∧ MatHolds Text cs M st) ∨ Ragged Text cs ∨
    ∃ j, BadRow Text E rep (j + 1) cs) (k : ℕ) : ThrowsC (matOrd O E k zero one cs) [] := by
  have : ∃ A s, readMat E (cs.length + 1) ⟨1, 1, [[zero]]⟩ cs = ok (A, s) ∧ A.num_rows ≠ A.num_cols := by
    rcases h with ⟨m, n, M, st, hmn, h⟩ | h | ⟨j, h⟩
    · obtain ⟨A, e, hA, -⟩ := read_holds S h0 h
      exact ⟨A, st, e, by rw [hA.shape.nr, hA.shape.nc]; exact hmn⟩
    · obtain ⟨A, s, e, -, h⟩ := read_ragged S h0 h
      exact ⟨A, s, e, h⟩
    · obtain ⟨A, s, e, -, h1, h2, -⟩ := read_bad_row S h0 h
      exact ⟨A, s, e, by omega⟩
  obtain ⟨A, s, e, h⟩ := this
  refine (prints_lift e).then_throws (throws_lift (?_ : TMat.det O A = .throw)).bind
  unfold TMat.det TMat.is_square
  simp [h]

omit H in
/-- No row, or a bad first row. -/
theorem matOrd_none (h : NoRows cs ∨ BadRow Text E rep 0 cs) (k : ℕ) : IsUb (matOrd O E k zero one cs) := by
  have : ∃ s, readMat E (cs.length + 1) ⟨1, 1, [[zero]]⟩ cs = ok (⟨0, 0, []⟩, s) := by
    rcases h with h | h
    · obtain ⟨s, e, -⟩ := read_none S h0 h
      exact ⟨s, e⟩
    · obtain ⟨⟨r, c, rows⟩, s, e, -, h1, h2, h3⟩ := read_bad_row S h0 h
      simp only at h1 h2 h3
      subst h1 h2
      rw [List.length_eq_zero_iff] at h3
      subst h3
      exact ⟨s, e⟩
  obtain ⟨s, e⟩ := this
  unfold matOrd
  rw [skip (prints_lift e)]
  exact (ub_lift rfl).bind

end

/-! ### Files -/

section
variable {α F : Type} [Field F] {O : TOps α} {E : EltIO α} {rep : α → F → Prop} {Text : List Char → F → Prop}
  {m n : ℕ} {zero one : α} {cs stdin name : List Char} {files : List Char → Option (List Char)}

/-- What is in a file, or on standard input if the name is `-` or `@`. -/
def Source (files : List Char → Option (List Char)) (stdin name cs : List Char) : Prop :=
  ((name = ['-'] ∨ name = ['@']) ∧ cs = stdin) ∨ (name ≠ ['-'] ∧ name ≠ ['@'] ∧ files name = some cs)

/-- A file that cannot be opened. -/
def Missing (files : List Char → Option (List Char)) (name : List Char) : Prop := name ≠ ['-'] ∧ name ≠ ['@'] ∧ files name = none

/-- Standard input once a matrix was read from the source. -/
def after (name : List Char) (st cin : IStream) : IStream := if name = ['-'] ∨ name = ['@'] then st else cin

theorem isStdin_iff : isStdin name = true ↔ name = ['-'] ∨ name = ['@'] := by simp [isStdin]

theorem loadM_eq (h : Source files stdin name cs) {A B : TMat α} {s : IStream} (e : readMat E (cs.length + 1) A cs = ok (B, s)) :
    loadM E files (.ofChars stdin) A name = ok (if s.fail then none else some B, after name s (.ofChars stdin)) := by
  unfold loadM after
  rcases h with ⟨h, rfl⟩ | ⟨h1, h2, h3⟩
  · rw [if_pos (isStdin_iff.2 h), if_pos h]
    simp only [IStream.ofChars, Bool.or_self, Bool.false_eq_true, if_false]
    rw [e]
    rfl
  · have : ¬ (name = ['-'] ∨ name = ['@']) := by tauto
    rw [if_neg (by rw [isStdin_iff]; exact this), if_neg this, h3]
    dsimp only
    rw [e]
    rfl

theorem loadM_missing (h : Missing files name) (A : TMat α) (cin : IStream) : loadM E files cin A name = ok (none, cin) := by
  obtain ⟨h1, h2, h3⟩ := h
  unfold loadM
  rw [if_neg (by rw [isStdin_iff]; tauto), h3]

theorem loadV_missing (h : Missing files name) (v : TVec α) (cin : IStream) : loadV E files cin v name = ok (none, cin) := by
  obtain ⟨h1, h2, h3⟩ := h
  unfold loadV
  rw [if_neg (by rw [isStdin_iff]; tauto), h3]

variable (S : EltSpec False E rep Text) (h0 : rep zero 0)
include S h0

theorem loadArg_prints (hs : Source files stdin name cs) {M : Matrix (Fin m) (Fin n) F} {st : IStream} (h : MatHolds Text cs M st) :
    ∃ A, Prints (loadArg (loadM E files (.ofChars stdin) ⟨1, 1, [[zero]]⟩ name)) [] (A, after name st (.ofChars stdin)) ∧ MRep rep A M ∧ 0 < m ∧ 0 < n := by
  obtain ⟨A, e, hA, hm, hn⟩ := read_holds S h0 h
  refine ⟨A, ?_, hA, hm, hn⟩
  have := loadM_eq hs e
  rw [h.fail] at this
  exact (prints_lift this).then (prints_pure _)

/-- What is no matrix. -/
theorem loadArg_exits (h : Missing files name ∨ ∃ cs, Source files stdin name cs ∧ (Ragged Text cs ∨ NoRows cs ∨ ∃ k, BadRow Text E rep k cs)) :
    Exits (loadArg (loadM E files (.ofChars stdin) ⟨1, 1, [[zero]]⟩ name)) [] := by
  rcases h with h | ⟨cs, hs, h⟩
  · exact (prints_lift (loadM_missing h _ _)).then_exits exits_exit1
  · have : ∃ A s, readMat E (cs.length + 1) ⟨1, 1, [[zero]]⟩ cs = ok (A, s) ∧ s.fail = true := by
      rcases h with h | h | ⟨k, h⟩
      · obtain ⟨A, s, e, h, -⟩ := read_ragged S h0 h
        exact ⟨A, s, e, h⟩
      · obtain ⟨s, e, h⟩ := read_none S h0 h
        exact ⟨_, s, e, h⟩
      · obtain ⟨A, s, e, h, -⟩ := read_bad_row S h0 h
        exact ⟨A, s, e, h⟩
    obtain ⟨A, s, e, h⟩ := this
    have := loadM_eq hs e
    rw [h] at this
    exact (prints_lift this).then_exits exits_exit1

variable {β : Type} {pol : TMat α → Res β} {sh : β → Res (List Char)}

theorem matChPol_prints (hs : Source files stdin name cs) {M : Matrix (Fin n) (Fin n) F} {st : IStream} (h : MatHolds Text cs M st) {t : List Char}
    (hp : ∀ A, MRep rep A M → 0 < n → ∃ p, pol A = ok p ∧ sh p = ok t) : Prints (matChPol E pol sh zero files stdin name) (t ++ ['\n']) () := by
  obtain ⟨A, e, hA, hm, -⟩ := loadArg_prints S h0 hs h
  obtain ⟨p, e1, e2⟩ := hp A hA hm
  exact e.then ((prints_lift e1).then (putLine_prints e2))

theorem matChPol_throws (hs : Source files stdin name cs) {M : Matrix (Fin m) (Fin n) F} {st : IStream} (h : MatHolds Text cs M st) (hmn : m ≠ n)
    (hp : ∀ A, A.num_rows ≠ A.num_cols → pol A = .throw) : ThrowsC (matChPol E pol sh zero files stdin name) [] := by
  obtain ⟨A, e, hA, -⟩ := loadArg_prints S h0 hs h
  exact e.then_throws (throws_lift (hp A (by rw [hA.shape.nr, hA.shape.nc]; exact hmn))).bind

theorem matChPol_exits (h : Missing files name ∨ ∃ cs, Source files stdin name cs ∧ (Ragged Text cs ∨ NoRows cs ∨ ∃ k, BadRow Text E rep k cs)) :
    Exits (matChPol E pol sh zero files stdin name) [] :=
  (loadArg_exits S h0 h).bind

/-! ### Vectors -/

/-- The first line of a text holds a vector. -/
def VecHolds (Text : List Char → F → Prop) (cs : List Char) (y : Fin n → F) : Prop :=
  ∃ l, VecText Text l (List.ofFn y) ∧ '\n' ∉ l ∧ l.length < 2048 ∧ (cs = l ∨ ∃ rest, cs = l ++ '\n' :: rest)

omit [Field F] S h0 in
theorem list_vec {v : TVec α} {y : Fin n → F} (h : List.Forall₂ rep v (List.ofFn y)) : VRep rep v y := by
  refine ⟨by simpa using h.length_eq, fun i => ?_⟩
  exact forall₂_get? h i

theorem readLine_ok {y : Fin n → F} (h : VecHolds Text cs y) :
    ∃ v s, readVecLine E (cs.length + 1) [zero] cs = ok (v, s) ∧ s.fail = false ∧ VRep rep v y := by
  obtain ⟨l, h1, h2, h3, h4⟩ := h
  have hlen := h1.length_le S
  rcases h4 with rfl | ⟨rest, rfl⟩
  · obtain ⟨⟨v, s⟩, e, k1, k2⟩ := sat_false.1 (readVec_yes S (S.sub h0) h1 (n := cs.length + 1) (v := []) (by omega))
    refine ⟨v, ⟨[], true, cs.isEmpty || s.fail⟩, ?_, ?_, list_vec k1⟩
    · unfold readVecLine
      rw [getLine_end h2 (by omega)]
      dsimp only
      rw [e]
      rfl
    · simp only at k2
      subst k2
      have := (h1.ne S).1
      simpa using this
  · obtain ⟨⟨v, s⟩, e, k1, k2⟩ := sat_false.1 (readVec_yes S (S.sub h0) h1 (n := (l ++ '\n' :: rest).length + 1) (v := [])
      (by simp only [List.length_append]; omega))
    refine ⟨v, ⟨rest, false, false || s.fail⟩, ?_, ?_, list_vec k1⟩
    · unfold readVecLine
      rw [getLine_line h2 h3]
      dsimp only
      rw [e]
      rfl
    · simp only at k2
      subst k2
      rfl

/-- What is read as the right-hand side: a file, or what is left on standard input. -/
def SourceV (files : List Char → Option (List Char)) (cin : IStream) (name cs : List Char) : Prop :=
  ((name = ['-'] ∨ name = ['@']) ∧ cin = ⟨cs, false, false⟩) ∨ (name ≠ ['-'] ∧ name ≠ ['@'] ∧ files name = some cs)

theorem loadV_prints {cin : IStream} (hs : SourceV files cin name cs) {y : Fin n → F} (h : VecHolds Text cs y) :
    ∃ v s, Prints (loadArg (loadV E files cin [zero] name)) [] (v, s) ∧ VRep rep v y := by
  obtain ⟨v, s, e, h1, h2⟩ := readLine_ok S h0 h
  rcases hs with ⟨h, rfl⟩ | ⟨k1, k2, k3⟩
  · refine ⟨v, s, ?_, h2⟩
    refine (prints_lift (a := (some v, s)) ?_).then (prints_pure _)
    unfold loadV
    rw [if_pos (isStdin_iff.2 h)]
    simp only [Bool.or_self, Bool.false_eq_true, if_false]
    rw [e, ok_bind, h1]
    rfl
  · refine ⟨v, cin, ?_, h2⟩
    refine (prints_lift (a := (some v, cin)) ?_).then (prints_pure _)
    unfold loadV
    rw [if_neg (by rw [isStdin_iff]; tauto), k3]
    dsimp only
    rw [e, ok_bind, h1]
    rfl

omit S h0 in
theorem loadV_exits {cin : IStream} (h : Missing files name ∨ ((name = ['-'] ∨ name = ['@']) ∧ cin.eof = true)) (v : TVec α) :
    Exits (loadArg (loadV E files cin v name)) [] := by
  rcases h with h | ⟨h1, h2⟩
  · exact (prints_lift (loadV_missing h _ _)).then_exits exits_exit1
  · refine (prints_lift (a := (none, { cin with fail := true })) ?_).then_exits exits_exit1
    unfold loadV
    rw [if_pos (isStdin_iff.2 h1), h2]
    rfl

variable (H : EltRef False O rep)
include H

/-- A solution, or none. -/
theorem matSolve_prints {nameb csb : List Char} (hs : Source files stdin name cs) {M : Matrix (Fin m) (Fin n) F} {st : IStream} (h : MatHolds Text cs M st)
    (hb : SourceV files (after name st (.ofChars stdin)) nameb csb) {y : Fin m → F} (hy : VecHolds Text csb y) {txt : F → List Char}
    (htxt : ∀ a x, rep a x → E.print a = ok (txt x)) :
    ((∃! z, M.mulVec z = y) → ∀ z, M.mulVec z = y →
      Prints (matSolve O E zero files stdin name nameb) (List.intercalate [' '] (List.ofFn fun i => txt (z i)) ++ ['\n']) 0) ∧
    ((¬ ∃! z, M.mulVec z = y) → Prints (matSolve O E zero files stdin name nameb) [] 1) := by
  obtain ⟨A, e, hA, hm, hn⟩ := loadArg_prints S h0 hs h
  obtain ⟨b, s, e1, hv⟩ := loadV_prints S h0 hb hy
  obtain ⟨⟨r, x⟩, e2, k1, k2⟩ := sat_false.1 (solve_sat (x := VObj.empty) H hm hn hA hv (by simp [VObj.empty]))
  constructor
  · intro hu z hz
    obtain rfl : r = true := k1.2 hu
    obtain ⟨v, w, k3, k4, k5⟩ := k2 rfl
    obtain rfl : w = z := hu.unique k5 hz
    refine e.then (e1.then ((prints_lift e2).then ?_))
    simp only [if_true]
    simp only at k3
    rw [k3]
    have : showVec E v = ok (List.intercalate [' '] (List.ofFn fun i => txt (w i))) := by
      unfold showVec
      have : VText.each E.print v = ok (List.ofFn fun i => txt (w i)) := by
        have key : ∀ (v : List α) (xs : List F), List.Forall₂ rep v xs → VText.each E.print v = ok (xs.map txt) := by
          intro v xs h
          induction h with
          | nil => rfl
          | cons h1 _ ih =>
            unfold VText.each
            rw [htxt _ _ h1, ok_bind, ih]
            rfl
        have hv' : List.Forall₂ rep v (List.ofFn w) := by
          rw [List.forall₂_iff_get]
          refine ⟨by simpa using k4.1, fun i h1 h2 => ?_⟩
          obtain ⟨a, ha, hr⟩ := k4.2 ⟨i, by simpa using h2⟩
          rw [List.getElem?_eq_getElem h1] at ha
          cases ha
          simpa using hr
        rw [key v _ hv']
        congr 1
        simp [List.map_ofFn, Function.comp_def]
      rw [this]
      rfl
    rw [← List.append_nil (List.intercalate _ _ ++ _)]
    exact (putLine_prints this).bind (prints_pure 0)
  · intro hu
    obtain rfl : r = false := by
      by_contra hr
      exact hu (k1.1 (by simpa using hr))
    refine e.then (e1.then ((prints_lift e2).then ?_))
    exact prints_pure _

end
end Spffl.Cmd
