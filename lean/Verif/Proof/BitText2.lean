import Verif.Proof.BitText

/-!
# Bit matrices as text: proofs
-/

namespace Spffl.BText
open Res Scan VText

private theorem at_set_ne {α : Type} {cs : List α} {i j : ℕ} {e : α} {P : α → Prop} (hij : i ≠ j) (h : At cs j P) :
    At (cs.set i e) j P := by
  obtain ⟨x, h1, h2⟩ := h
  exact ⟨x, by rw [List.getElem?_set_ne hij]; exact h1, h2⟩

/-- The matrix whose rows have these elements. -/
def matOf (m n : ℕ) (xss : List (List ℤ)) : Matrix (Fin m) (Fin n) (ZMod 2) := fun i => vecOf n (xss.getD i [])

/-- A row that was read, or one that was not written to. -/
def Held (v : BV) (xs : List ℤ) : Prop :=
  v.num_bits = xs.length ∧ ((xs ≠ [] ∧ BV.Rep v (vecOf xs.length xs)) ∨ (xs = [] ∧ v.num_words = 0))

/-- The rows of an array that may be longer. -/
def HeldAll (rs : List BV) (xss : List (List ℤ)) : Prop :=
  xss.length ≤ rs.length ∧ ∀ i (h : i < xss.length), At rs i (fun v => Held v xss[i])

theorem heldAll_nil (rs : List BV) : HeldAll rs [] := ⟨by simp, fun i h => by simp at h⟩

theorem heldAll_fresh {r : ℕ} (h : r ≤ 40) : HeldAll (List.replicate 40 BV.empty) (List.replicate r []) := by
  refine ⟨by simpa using h, fun i hi => ⟨BV.empty, ?_, ?_⟩⟩
  · simp only [List.length_replicate] at hi
    rw [List.getElem?_replicate, if_pos (by omega)]
  · simp only [List.getElem_replicate]
    exact ⟨rfl, .inr ⟨rfl, rfl⟩⟩

theorem moreRows_ok {rs : List BV} {xss : List (List ℤ)} (h : HeldAll rs xss) :
    ∃ t, moreRows rs xss.length = ok t ∧ HeldAll t xss ∧ t.length = rs.length + 40 := by
  unfold moreRows
  obtain ⟨t, h1, h2, h3, _⟩ := forUp_ok (body := fun i t => do
      let v ← rd rs i
      BM.assignRow t i v)
    (fun i t => t.length = rs.length + 40 ∧ (∀ j (_ : j < i) (hj' : j < xss.length), At t j (fun v => Held v xss[j])) ∧
      ∀ j, i ≤ j → j < rs.length + 40 → t[j]? = some BV.empty) (Nat.zero_le xss.length)
    (s := List.replicate (rs.length + 40) BV.empty)
    ⟨by simp, fun j hj => by omega, fun j _ hj => by rw [List.getElem?_replicate, if_pos hj]⟩ (fun i t _ hi ⟨e1, e2, e3⟩ => by
      obtain ⟨v, hv, hh⟩ := (h.2 i hi).rd
      have hlen := h.1
      rw [hv, ok_bind]
      unfold BM.assignRow
      rw [show rd t i = ok BV.empty by unfold rd; rw [e3 i (le_refl _) (by omega)], ok_bind]
      obtain ⟨w, hw, hhw⟩ : ∃ w, BV.assign BV.empty v = ok w ∧ Held w xss[i] := by
        obtain ⟨hb, ⟨hne, hr⟩ | ⟨he, hz⟩⟩ := hh
        · obtain ⟨w, hw, hwr⟩ := BV.assign_rep hr (o := BV.empty) (.inl rfl)
          exact ⟨w, hw, hwr.nb, .inl ⟨hne, hwr⟩⟩
        · refine ⟨⟨false, [], 0, v.num_bits⟩, ?_, hb, .inr ⟨he, rfl⟩⟩
          unfold BV.assign
          rw [hz]
          rfl
      rw [hw, ok_bind, wr_ok (by omega), Ok_ok]
      refine ⟨by simpa using e1, fun j hj hj' => ?_, fun j hj hj' => ?_⟩
      · by_cases hji : j = i
        · subst hji
          exact at_set_self (by omega) hhw
        · exact at_set_ne (fun h => hji h.symm) (e2 j (by omega) hj')
      · rw [List.getElem?_set_ne (by omega)]
        exact e3 j (by omega) hj')
  exact ⟨t, h1, ⟨by have := h.1; omega, fun i hi => h3 i hi hi⟩, h2⟩

theorem grow_ok {rs : List BV} {xss : List (List ℤ)} (h : HeldAll rs xss) :
    ∃ t, (if rs.length ≤ xss.length then moreRows rs xss.length else ok rs) = ok t ∧ HeldAll t xss ∧ xss.length < t.length := by
  split_ifs with hle
  · obtain ⟨t, h1, h2, h3⟩ := moreRows_ok h
    exact ⟨t, h1, h2, by have := h.1; omega⟩
  · exact ⟨rs, rfl, h, by omega⟩

theorem HeldAll.push {rs : List BV} {xss : List (List ℤ)} (h : HeldAll rs xss) (hl : xss.length < rs.length) {w : BV} {xs : List ℤ}
    (hx : xs ≠ []) (hw : VR w xs) : ∃ t, wr rs xss.length w = ok t ∧ HeldAll t (xss ++ [xs]) := by
  refine ⟨_, wr_ok hl, by simp; omega, fun i hi => ?_⟩
  by_cases hii : i = xss.length
  · subst hii
    refine at_set_self hl ?_
    simp only [List.getElem_append_right (le_refl _), Nat.sub_self, List.getElem_singleton]
    exact ⟨hw.nb, .inl ⟨hx, hw.rep⟩⟩
  · have hlt : i < xss.length := by simp at hi; omega
    rw [List.getElem_append_left hlt]
    exact at_set_ne (fun h => hii h.symm) (h.2 i hlt)

/-! ### Lines -/

/-- A line that fits, whose text up to the comment is a sequence of integers. -/
def BitLine (l : List Char) (xs : List ℤ) : Prop := '\n' ∉ l ∧ l.length < 8192 ∧ IntSeq (l.takeWhile (· ≠ '#')) xs

/-- A line that fits, with nothing but white space up to the comment. -/
def BlankLine (l : List Char) : Prop := '\n' ∉ l ∧ l.length < 8192 ∧ ∀ c ∈ l.takeWhile (· ≠ '#'), isSpace c = true

theorem IntSeq.not_space {cs : List Char} {ns : List ℤ} (h : IntSeq cs ns) : cs.all isSpace = false := by
  obtain ⟨u, e, rfl, he⟩ := h.last_dig
  simp [dig_not_space he]

theorem IntSeq.ns_ne {cs : List Char} {ns : List ℤ} (h : IntSeq cs ns) : ns ≠ [] := by cases h <;> simp

theorem take_len (l : List Char) : (l.takeWhile (· ≠ '#')).length ≤ l.length := by
  have := congrArg List.length (List.takeWhile_append_dropWhile (p := (· ≠ '#')) (l := l))
  simp only [List.length_append] at this
  omega

theorem bmLoop_row {u : BitVec 64} {n : ℕ} {rs : List BV} {xss : List (List ℤ)} (h : HeldAll rs xss) {l : List Char} {xs : List ℤ}
    (hl : BitLine l xs) (rest : List Char) : ∃ t, HeldAll t (xss ++ [xs]) ∧
      bmLoop u (n + 1) xss.length rs (l ++ '\n' :: rest) = bmLoop u n (xss ++ [xs]).length t rest := by
  obtain ⟨t, h1, h2, h3⟩ := grow_ok h
  obtain ⟨w, s, e1, e2⟩ := readBV_spec (u := u) (cs := l.takeWhile (· ≠ '#')) (by have := take_len l; have := hl.2.1; omega)
  rcases e2 with ⟨ys, hy, hv, rfl⟩ | ⟨hno, _⟩
  · obtain rfl := hl.2.2.unique hy
    obtain ⟨t', h4, h5⟩ := h2.push h3 hy.ns_ne hv
    refine ⟨t', h5, ?_⟩
    rw [bmLoop, h1, ok_bind]
    dsimp only
    rw [getLine_line hl.1 hl.2.1]
    dsimp only
    rw [if_neg (by simp), if_neg (by simp), if_neg (by rw [hl.2.2.not_space]; simp), e1, ok_bind, h4, ok_bind, if_neg (by simp)]
    simp
  · exact absurd ⟨_, hl.2.2⟩ hno

theorem bmLoop_rows {u : BitVec 64} {ls : List (List Char)} {yss : List (List ℤ)} (hls : List.Forall₂ BitLine ls yss) :
    ∀ (n : ℕ) (rs : List BV) (xss : List (List ℤ)) (rest : List Char), HeldAll rs xss → ls.length ≤ n →
      ∃ t, HeldAll t (xss ++ yss) ∧
        bmLoop u n xss.length rs (lines ls ++ rest) = bmLoop u (n - ls.length) (xss ++ yss).length t rest := by
  induction hls with
  | nil => intro n rs xss rest h _; exact ⟨rs, by simpa using h, by simp [lines]⟩
  | @cons l ys ls yss hl _ ih =>
    intro n rs xss rest h hn
    obtain ⟨n, rfl⟩ : ∃ k, n = k + 1 := ⟨n - 1, by simp at hn; omega⟩
    rw [lines_cons]
    obtain ⟨t, h1, h2⟩ := bmLoop_row (u := u) (n := n) h hl (lines ls ++ rest)
    rw [h2]
    obtain ⟨t', h3, h4⟩ := ih n t _ rest h1 (by simp at hn; omega)
    refine ⟨t', by simpa using h3, ?_⟩
    rw [h4]
    simp

theorem bmLoop_blank {u : BitVec 64} {n : ℕ} {rs : List BV} {xss : List (List ℤ)} (h : HeldAll rs xss) {l : List Char} (hl : BlankLine l)
    (rest : List Char) : ∃ t, HeldAll t xss ∧ bmLoop u (n + 1) xss.length rs (l ++ '\n' :: rest) =
      if xss = [] then bmLoop u n 0 t rest else ok (xss.length, t, ⟨rest, false, false⟩, .done) := by
  obtain ⟨t, h1, h2, h3⟩ := grow_ok h
  refine ⟨t, h2, ?_⟩
  rw [bmLoop, h1, ok_bind]
  dsimp only
  rw [getLine_line hl.1 hl.2.1]
  dsimp only
  rw [if_neg (by simp), if_neg (by simp), if_pos (by simpa using hl.2.2)]
  cases xss with
  | nil => simp
  | cons a b => rw [if_neg (by simp), if_neg (by simp)]

theorem bmLoop_blanks {u : BitVec 64} {els : List (List Char)} (hels : ∀ l ∈ els, BlankLine l) :
    ∀ (n : ℕ) (rs : List BV) (rest : List Char), els.length ≤ n →
      ∃ t, bmLoop u n 0 rs (lines els ++ rest) = bmLoop u (n - els.length) 0 t rest := by
  induction els with
  | nil => intro n rs rest _; exact ⟨rs, by simp [lines]⟩
  | cons l els ih =>
    intro n rs rest hn
    obtain ⟨n, rfl⟩ : ∃ k, n = k + 1 := ⟨n - 1, by simp at hn; omega⟩
    rw [lines_cons]
    obtain ⟨t, _, h2⟩ := bmLoop_blank (u := u) (n := n) (heldAll_nil rs) (hels l (by simp)) (lines els ++ rest)
    rw [show (0 : ℕ) = ([] : List (List ℤ)).length from rfl, h2, if_pos rfl]
    obtain ⟨t', h3⟩ := ih (fun l hl => hels l (by simp [hl])) n t rest (by simp at hn; omega)
    exact ⟨t', by rw [h3]; simp⟩

theorem bmLoop_end {u : BitVec 64} {n : ℕ} {rs : List BV} {xss : List (List ℤ)} (h : HeldAll rs xss) {tail : List Char}
    (h1 : '\n' ∉ tail) (h2 : tail.length < 8192) :
    ∃ t, HeldAll t xss ∧ bmLoop u (n + 1) xss.length rs tail = ok (xss.length, t, ⟨[], false, false⟩, .done) := by
  obtain ⟨t, e1, e2, _⟩ := grow_ok h
  refine ⟨t, e2, ?_⟩
  rw [bmLoop, e1, ok_bind]
  dsimp only
  rw [getLine_end h1 h2]
  dsimp only
  rw [if_pos rfl]

theorem bmLoop_long {u : BitVec 64} {n : ℕ} {rs : List BV} {xss : List (List ℤ)} (h : HeldAll rs xss) {l rest : List Char}
    (h1 : '\n' ∉ l) (h2 : 8192 ≤ l.length) :
    ∃ t s, HeldAll t xss ∧ bmLoop u (n + 1) xss.length rs (l ++ rest) = ok (xss.length, t, s, .done) ∧ s.fail = true := by
  obtain ⟨t, e1, e2, _⟩ := grow_ok h
  have ht : 8192 ≤ ((l ++ rest).takeWhile (· ≠ '\n')).length := by
    rw [List.takeWhile_append_of_pos (by intro a ha; simp only [ne_eq, decide_eq_true_eq]; rintro rfl; exact h1 ha)]
    simp; omega
  have hg : getLine 8192 (l ++ rest) = ((((l ++ rest).takeWhile (· ≠ '\n')).take 8191), (l ++ rest).drop 8191, false, true) := by
    unfold getLine
    dsimp only
    rw [if_neg (by omega)]
  refine ⟨t, ⟨(l ++ rest).drop 8191, false, true⟩, e2, ?_, rfl⟩
  rw [bmLoop, e1, ok_bind]
  dsimp only
  rw [hg]
  dsimp only
  rw [if_neg (by simp), if_pos rfl]

/-- A line that is neither empty nor a row. -/
theorem bmLoop_bad {u : BitVec 64} {n : ℕ} {rs : List BV} {xss : List (List ℤ)} (h : HeldAll rs xss) {l : List Char} (h1 : '\n' ∉ l)
    (h2 : l.length < 8192) (h3 : ¬ BlankLine l) (h4 : ¬ ∃ xs, BitLine l xs) (rest : List Char) :
    ∃ t, HeldAll t xss ∧ bmLoop u (n + 1) xss.length rs (l ++ '\n' :: rest) = ok (xss.length, t, ⟨rest, false, true⟩, .early) := by
  obtain ⟨t, e1, e2, e3⟩ := grow_ok h
  obtain ⟨w, s, f1, f2⟩ := readBV_spec (u := u) (cs := l.takeWhile (· ≠ '#')) (by have := take_len l; omega)
  rcases f2 with ⟨ys, hy, _, _⟩ | ⟨_, hf, _⟩
  · exact absurd ⟨ys, h1, h2, hy⟩ h4
  · refine ⟨t.set xss.length w, ⟨by simpa using e2.1, fun i hi => at_set_ne (by omega) (e2.2 i hi)⟩, ?_⟩
    rw [bmLoop, e1, ok_bind]
    dsimp only
    rw [getLine_line h1 h2]
    dsimp only
    rw [if_neg (by simp), if_neg (by simp), if_neg (fun ha => h3 ⟨h1, h2, by simpa using ha⟩), f1, ok_bind, wr_ok e3, ok_bind,
      if_pos hf]

/-! ### After the loop -/

theorem minMax_ok {rs : List BV} {xss : List (List ℤ)} (h : HeldAll rs xss) : ∃ lo hi, minMax xss.length rs = ok (lo, hi) ∧
    (∀ xs ∈ xss, lo ≤ xs.length ∧ xs.length ≤ hi) ∧ (lo = 0x7fffffff ∨ ∃ xs ∈ xss, lo = xs.length) ∧
      (hi = 0 ∨ ∃ xs ∈ xss, hi = xs.length) := by
  unfold minMax
  obtain ⟨⟨lo, hi⟩, h1, h2, h3, h4⟩ := forUp_ok (body := fun i (s : ℕ × ℕ) => do
      let v ← rd rs i
      let c := v.num_bits
      let hi := if s.2 < c then c else s.2
      let lo := if c < s.1 then c else s.1
      ok (lo, hi))
    (fun i s => (∀ j (_ : j < i) (hj : j < xss.length), s.1 ≤ xss[j].length ∧ xss[j].length ≤ s.2) ∧
      (s.1 = 0x7fffffff ∨ ∃ xs ∈ xss, s.1 = xs.length) ∧ (s.2 = 0 ∨ ∃ xs ∈ xss, s.2 = xs.length)) (Nat.zero_le xss.length)
    (s := (0x7fffffff, 0)) ⟨fun j hj => by omega, .inl rfl, .inl rfl⟩ (fun i s _ hi ⟨e1, e2, e3⟩ => by
      obtain ⟨v, hv, hh⟩ := (h.2 i hi).rd
      rw [hv]
      simp only [ok_bind, Ok_ok]
      rw [hh.1]
      refine ⟨fun j hj hj' => ?_, ?_, ?_⟩
      · by_cases hji : j = i
        · subst hji
          constructor <;> (split_ifs <;> omega)
        · have := e1 j (by omega) hj'
          constructor <;> (split_ifs <;> omega)
      · split_ifs
        · exact .inr ⟨_, List.getElem_mem hi, rfl⟩
        · exact e2
      · split_ifs
        · exact .inr ⟨_, List.getElem_mem hi, rfl⟩
        · exact e3)
  refine ⟨lo, hi, h1, fun xs hx => ?_, h3, h4⟩
  obtain ⟨j, hj, rfl⟩ := List.getElem_of_mem hx
  exact h2 j hj hj

theorem HeldAll.rep {rs : List BV} {xss : List (List ℤ)} (h : HeldAll rs xss) {c : ℕ} (hc : ∀ xs ∈ xss, xs.length = c) (hc0 : c ≠ 0) :
    BM.Rep ⟨xss.length, c, rs.take xss.length⟩ (matOf xss.length c xss) where
  nr := rfl
  nc := rfl
  len := by have := h.1; simp; omega
  row := fun i => by
    obtain ⟨v, hv, hh⟩ := h.2 i i.2
    refine ⟨v, by rw [List.getElem?_take, if_pos i.2]; exact hv, ?_⟩
    have hlen := hc _ (List.getElem_mem i.2)
    have hrow : matOf xss.length c xss i = vecOf c xss[i.1] := by
      unfold matOf
      rw [List.getD_eq_getElem _ _ i.2]
    rw [hrow]
    rcases hh.2 with ⟨_, hr⟩ | ⟨he, _⟩
    · have hr' : BV.Rep v (vecOf xss[i.1].length xss[i.1]) := hr
      rw [hlen] at hr'
      exact hr'
    · rw [he] at hlen
      exact absurd hlen.symm hc0

/-- What is left of the stream after the loop. -/
def afterPeek (s : IStream) : IStream := if s.peek.1 = none then { s.peek.2 with eof := true } else s.peek.2

/-- Rows of one length are a matrix, others are refused. -/
theorem readBM_done {u : BitVec 64} {A : BM} {cs : List Char} {rs : List BV} {xss : List (List ℤ)} {s : IStream}
    (h : bmLoop u (cs.length + 1) A.num_rows (List.replicate 40 BV.empty) cs = ok (xss.length, rs, s, .done))
    (hh : HeldAll rs xss) (hne : xss ≠ []) (hb : ∀ xs ∈ xss, xs.length ≤ 0x7fffffff) : ∃ B s', readBM u A cs = ok (B, s') ∧
      ((∀ c, (∀ xs ∈ xss, xs.length = c) → B = ⟨xss.length, c, rs.take xss.length⟩ ∧ s' = afterPeek s) ∧
        ((¬ ∃ c, ∀ xs ∈ xss, xs.length = c) → s' = { afterPeek s with fail := true })) := by
  obtain ⟨lo, hi, h1, h2, h3, h4⟩ := minMax_ok hh
  obtain ⟨x0, hx0⟩ := List.exists_mem_of_ne_nil _ hne
  unfold readBM
  rw [h]
  simp only [ok_bind]
  rw [if_neg (by simpa using hne), h1]
  simp only [ok_bind]
  by_cases he : ∃ c, ∀ xs ∈ xss, xs.length = c
  · obtain ⟨c, hc⟩ := he
    have b1 := h2 _ hx0
    have b2 := hb _ hx0
    have b3 := hc _ hx0
    have hlo : lo = c := by
      rcases h3 with h3 | ⟨xs, hx, h3⟩
      · omega
      · rw [h3]; exact hc xs hx
    have hhi : hi = c := by
      rcases h4 with h4 | ⟨xs, hx, h4⟩
      · omega
      · rw [h4]; exact hc xs hx
    rw [if_neg (by simp [hlo, hhi])]
    refine ⟨_, _, rfl, fun c' hc' => ?_, fun hno => absurd ⟨c, hc⟩ hno⟩
    obtain rfl : c = c' := by rw [← b3]; exact hc' _ hx0
    rw [hhi]
    exact ⟨rfl, rfl⟩
  · have hne' : lo ≠ hi := by
      rintro rfl
      exact he ⟨lo, fun xs hx => by have := h2 xs hx; omega⟩
    rw [if_pos hne']
    exact ⟨_, _, rfl, fun c hc => absurd ⟨c, hc⟩ he, fun _ => rfl⟩

theorem afterPeek_end : afterPeek ⟨[], false, false⟩ = ⟨[], true, false⟩ := rfl
theorem afterPeek_rest (rest : List Char) : afterPeek ⟨rest, false, false⟩ = ⟨rest, rest.isEmpty, false⟩ := by
  cases rest <;> rfl
theorem afterPeek_fail {s : IStream} (h : s.fail = true) : (afterPeek s).fail = true := by
  have : s.peek = (none, { s with fail := true }) := by
    unfold IStream.peek
    rw [if_neg (by simp [IStream.good, h])]
  unfold afterPeek
  rw [this]
  simp

theorem readBM_early {u : BitVec 64} {A : BM} {cs : List Char} {rs : List BV} {r : ℕ} {s : IStream}
    (h : bmLoop u (cs.length + 1) A.num_rows (List.replicate 40 BV.empty) cs = ok (r, rs, s, .early)) :
    readBM u A cs = ok (⟨r, A.num_cols, rs.take r⟩, s) := by
  unfold readBM
  rw [h]
  simp only [ok_bind]

theorem readBM_none {u : BitVec 64} {A : BM} {cs : List Char} {rs : List BV} {s : IStream}
    (h : bmLoop u (cs.length + 1) A.num_rows (List.replicate 40 BV.empty) cs = ok (0, rs, s, .done)) :
    readBM u A cs = ok (⟨0, A.num_cols, []⟩, { afterPeek s with fail := true }) := by
  unfold readBM
  rw [h]
  simp only [ok_bind, if_true, List.take_zero]
  rfl

/-! ### Every text -/

theorem line_cases (cs : List Char) : (∃ l rest, cs = l ++ '\n' :: rest ∧ '\n' ∉ l ∧ l.length < 8192) ∨
    ('\n' ∉ cs ∧ cs.length < 8192) ∨ ∃ l rest, cs = l ++ rest ∧ '\n' ∉ l ∧ 8192 ≤ l.length := by
  have hsp := List.takeWhile_append_dropWhile (p := (· ≠ '\n')) (l := cs)
  have hnl : '\n' ∉ cs.takeWhile (· ≠ '\n') := fun h => by
    have := takeWhile_all _ _ _ h
    simp at this
  by_cases hl : (cs.takeWhile (· ≠ '\n')).length < 8192
  · cases hd : cs.dropWhile (· ≠ '\n') with
    | nil =>
      rw [hd, List.append_nil] at hsp
      rw [hsp] at hnl hl
      exact .inr (.inl ⟨hnl, hl⟩)
    | cons c r =>
      have hc : c = '\n' := by
        have := List.head?_dropWhile_not (p := (· ≠ '\n')) cs
        rw [hd] at this
        simpa using this
      subst hc
      rw [hd] at hsp
      exact .inl ⟨_, _, hsp.symm, hnl, hl⟩
  · exact .inr (.inr ⟨_, _, hsp.symm, hnl, by omega⟩)

/-- How the loop ends. -/
def Ends (tail : List Char) (s : IStream) (how : Left) (some' : Prop) : Prop :=
  (how = .done ∧ '\n' ∉ tail ∧ tail.length < 8192 ∧ s = ⟨[], false, false⟩) ∨
    (how = .done ∧ some' ∧ ∃ e rest, tail = e ++ '\n' :: rest ∧ BlankLine e ∧ s = ⟨rest, false, false⟩) ∨ s.fail = true

theorem bmLoop_total {u : BitVec 64} : ∀ (n : ℕ) (cs : List Char) (rs : List BV) (xss : List (List ℤ)), HeldAll rs xss → cs.length < n →
    ∃ els ls yss tail t s how, cs = lines els ++ (lines ls ++ tail) ∧ (∀ l ∈ els, BlankLine l) ∧ (xss ≠ [] → els = []) ∧
      List.Forall₂ BitLine ls yss ∧ HeldAll t (xss ++ yss) ∧ bmLoop u n xss.length rs cs = ok ((xss ++ yss).length, t, s, how) ∧
      Ends tail s how (xss ++ yss ≠ []) := by
  intro n
  induction n with
  | zero => intro cs _ _ _ h; exact absurd h (by omega)
  | succ n ih =>
    intro cs rs xss hh hn
    rcases line_cases cs with ⟨l, rest, rfl, hnl, hl⟩ | ⟨hnl, hl⟩ | ⟨l, rest, rfl, hnl, hl⟩
    · have hrest : rest.length < n := by simp at hn; omega
      by_cases hb : BlankLine l
      · obtain ⟨t, h1, h2⟩ := bmLoop_blank (u := u) (n := n) hh hb rest
        by_cases hx : xss = []
        · subst hx
          rw [if_pos rfl] at h2
          obtain ⟨els, ls, yss, tail, t', s, how, rfl, h3, _, h5, h6, h7, h8⟩ := ih rest t [] h1 hrest
          refine ⟨l :: els, ls, yss, tail, t', s, how, ?_, ?_, fun h => absurd rfl h, h5, h6, ?_, h8⟩
          · rw [lines_cons]
          · intro a ha
            rcases List.mem_cons.1 ha with rfl | ha
            · exact hb
            · exact h3 a ha
          · rw [h2]; exact h7
        · rw [if_neg hx] at h2
          refine ⟨[], [], [], _, t, _, _, by simp [lines]; rfl, by simp, fun _ => rfl, .nil, by simpa using h1, by simpa using h2, ?_⟩
          exact .inr (.inl ⟨rfl, by simpa using hx, l, rest, rfl, hb, rfl⟩)
      · by_cases hr : ∃ xs, BitLine l xs
        · obtain ⟨xs, hr⟩ := hr
          obtain ⟨t, h1, h2⟩ := bmLoop_row (u := u) (n := n) hh hr rest
          obtain ⟨els, ls, yss, tail, t', s, how, rfl, h3, h4, h5, h6, h7, h8⟩ := ih rest t _ h1 hrest
          obtain rfl := h4 (by simp)
          refine ⟨[], l :: ls, xs :: yss, tail, t', s, how, ?_, by simp, fun _ => rfl, .cons hr h5, by simpa using h6, ?_, by simpa using h8⟩
          · rw [lines_cons]; simp [lines]
          · rw [h2, h7]; simp
        · obtain ⟨t, h1, h2⟩ := bmLoop_bad (u := u) (n := n) hh hnl hl hb hr rest
          exact ⟨[], [], [], _, t, _, _, by simp [lines]; rfl, by simp, fun _ => rfl, .nil, by simpa using h1, by simpa using h2, .inr (.inr rfl)⟩
    · obtain ⟨t, h1, h2⟩ := bmLoop_end (u := u) (n := n) hh hnl hl
      exact ⟨[], [], [], cs, t, _, _, by simp [lines], by simp, fun _ => rfl, .nil, by simpa using h1, by simpa using h2,
        .inl ⟨rfl, hnl, hl, rfl⟩⟩
    · obtain ⟨t, s, h1, h2, h3⟩ := bmLoop_long (u := u) (n := n) (rest := rest) hh hnl hl
      exact ⟨[], [], [], _, t, s, _, by simp [lines]; rfl, by simp, fun _ => rfl, .nil, by simpa using h1, by simpa using h2, .inr (.inr h3)⟩

end Spffl.BText
