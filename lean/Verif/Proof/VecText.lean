import Verif.Model.VecText
import Verif.Proof.PolyText

/-!
# Vectors and matrices as text: proofs
-/

namespace Spffl.VText
open Res Scan PText

variable {α R : Type} [Zero R] {E : EltIO α} {rep : α → R → Prop} {Text : List Char → R → Prop} {U : Prop}

/-- Characters other than white space, brackets and the comment sign. -/
def plain (c : Char) : Bool := !isSpace c && c ≠ '#' && c ≠ '[' && c ≠ ']'

/-- What is asked of an element type: `Text t x` says that `t` is a text of `x`.  Such a text is read as `x` if it is
followed by a blank or nothing, what is printed is such a text, and blanks alone are refused. -/
structure EltSpec (U : Prop) (E : EltIO α) (rep : α → R → Prop) (Text : List Char → R → Prop) : Prop where
  sub : ∀ {z}, rep z 0 → (E.sub z z).Sat U fun z => rep z 0
  read : ∀ {z}, rep z 0 → ∀ {ws t x rest}, (∀ c ∈ ws, blank c = true) → Text t x → (∀ c ∈ rest.head?, blank c = true) →
    (E.read z (ws ++ t ++ rest)).Sat U fun r => rep r.1 x ∧ r.2 = ⟨rest, rest.isEmpty, false⟩
  print : ∀ {a x}, rep a x → ∃ t, E.print a = ok t ∧ Text t x
  clean : ∀ {t x}, Text t x → t ≠ [] ∧ ∀ c ∈ t, plain c = true
  blanks : ∀ {z}, rep z 0 → ∀ {ws}, (∀ c ∈ ws, blank c = true) → (E.read z ws).Sat U fun r => r.2.fail = true

/-- Elements, each after blanks, of which there is at least one between any two. -/
inductive VecText (Text : List Char → R → Prop) : List Char → List R → Prop
  | one {ws t x} : (∀ c ∈ ws, blank c = true) → Text t x → VecText Text (ws ++ t) [x]
  | cons {ws t x cs xs} : (∀ c ∈ ws, blank c = true) → Text t x → VecText Text cs xs → (∀ c ∈ cs.head?, blank c = true) →
    VecText Text (ws ++ t ++ cs) (x :: xs)

theorem VecText.ne (H : EltSpec U E rep Text) {cs : List Char} {xs : List R} (h : VecText Text cs xs) : cs ≠ [] ∧ xs ≠ [] := by
  cases h with
  | one _ ht => simp [(H.clean ht).1]
  | cons _ ht _ _ => simp [(H.clean ht).1]

/-- The characters of such a text. -/
theorem VecText.chars (H : EltSpec U E rep Text) {cs : List Char} {xs : List R} (h : VecText Text cs xs) :
    ∀ c ∈ cs, blank c = true ∨ plain c = true := by
  induction h with
  | one hw ht =>
    intro c hc
    rcases List.mem_append.1 hc with hc | hc
    · exact Or.inl (hw c hc)
    · exact Or.inr ((H.clean ht).2 c hc)
  | cons hw ht _ _ ih =>
    intro c hc
    rcases List.mem_append.1 hc with hc | hc
    · rcases List.mem_append.1 hc with hc | hc
      · exact Or.inl (hw c hc)
      · exact Or.inr ((H.clean ht).2 c hc)
    · exact ih c hc

/-- Every element takes at least one character. -/
theorem VecText.length_le (H : EltSpec U E rep Text) {cs : List Char} {xs : List R} (h : VecText Text cs xs) :
    xs.length ≤ cs.length := by
  have key : ∀ {t x}, Text t x → 1 ≤ t.length := fun ht => by
    have := (H.clean ht).1
    exact List.length_pos_iff.2 this
  induction h with
  | one _ ht => have := key ht; simp; omega
  | cons _ ht _ _ ih => have := key ht; simp; omega

theorem plain_not {c : Char} (h : blank c = true ∨ plain c = true) : c ≠ '#' ∧ c ≠ '[' ∧ c ≠ ']' := by
  rcases h with h | h
  · simp only [blank, Bool.or_eq_true, decide_eq_true_eq] at h
    rcases h with (rfl | rfl) | rfl <;> decide
  · simp only [plain, Bool.and_eq_true, decide_eq_true_eq] at h
    exact ⟨h.1.1.2, h.1.2, h.2⟩

/-- It ends with a character that is not white space. -/
theorem VecText.last (H : EltSpec U E rep Text) {cs : List Char} {xs : List R} (h : VecText Text cs xs) :
    ∃ u c, cs = u ++ [c] ∧ isSpace c = false := by
  have key : ∀ {t x}, Text t x → ∃ u c, t = u ++ [c] ∧ isSpace c = false := by
    intro t x ht
    obtain ⟨hne, hp⟩ := H.clean ht
    refine ⟨t.dropLast, t.getLast hne, (List.dropLast_append_getLast hne).symm, ?_⟩
    have := hp _ (List.getLast_mem hne)
    simp only [plain, Bool.and_eq_true] at this
    simpa using this.1.1.1
  induction h with
  | @one ws t x hw ht =>
    obtain ⟨u, c, rfl, hc⟩ := key ht
    exact ⟨ws ++ u, c, by simp, hc⟩
  | @cons ws t x cs xs hw ht _ _ ih =>
    obtain ⟨u, c, rfl, hc⟩ := ih
    exact ⟨ws ++ t ++ u, c, by simp, hc⟩

theorem each_ok {β γ : Type} {f : β → Res γ} {P : β → γ → Prop} {bs : List β} (h : ∀ b ∈ bs, ∃ c, f b = ok c ∧ P b c) :
    ∃ cs, each f bs = ok cs ∧ List.Forall₂ P bs cs := by
  induction bs with
  | nil => exact ⟨[], rfl, .nil⟩
  | cons b bs ih =>
    obtain ⟨c, h1, h2⟩ := h b (by simp)
    obtain ⟨cs, h3, h4⟩ := ih fun b hb => h b (by simp [hb])
    exact ⟨c :: cs, by rw [each, h1, ok_bind, h3, ok_bind], .cons h2 h4⟩

theorem each_forall₂ {β γ δ : Type} {f : β → Res γ} {Q : β → δ → Prop} {P : γ → δ → Prop} {bs : List β} {ds : List δ}
    (hq : List.Forall₂ Q bs ds) (h : ∀ b d, Q b d → ∃ c, f b = ok c ∧ P c d) :
    ∃ cs, each f bs = ok cs ∧ List.Forall₂ P cs ds := by
  induction hq with
  | nil => exact ⟨[], rfl, .nil⟩
  | cons hb _ ih =>
    obtain ⟨c, h1, h2⟩ := h _ _ hb
    obtain ⟨cs, h3, h4⟩ := ih
    exact ⟨c :: cs, by rw [each, h1, ok_bind, h3, ok_bind], .cons h2 h4⟩

/-! ### Reading a vector -/

theorem vecLoop_yes (H : EltSpec U E rep Text) {z : α} (hz : rep z 0) {cs : List Char} {xs : List R} (h : VecText Text cs xs) :
    ∀ {n : ℕ} {v : List α}, xs.length < n → (vecLoop E z n v (.ofChars cs)).Sat U fun r =>
      ∃ us, r = (v ++ us, ⟨[], true, false⟩) ∧ List.Forall₂ rep us xs := by
  induction h with
  | @one ws t x hw ht =>
    intro n v hn
    obtain ⟨n, rfl⟩ : ∃ k, n = k + 2 := ⟨n - 2, by simp at hn; omega⟩
    unfold vecLoop
    simp only [IStream.ofChars, Bool.false_eq_true, if_false]
    have := H.read hz hw ht (rest := []) (by simp)
    rw [List.append_nil] at this
    refine this.bind ?_
    rintro ⟨a, s⟩ ⟨ha, rfl⟩
    dsimp only
    rw [if_neg (by simp), vecLoop, if_pos (by rfl)]
    exact ⟨[a], rfl, .cons ha .nil⟩
  | @cons ws t x cs xs hw ht hcs hb ih =>
    intro n v hn
    obtain ⟨n, rfl⟩ : ∃ k, n = k + 1 := ⟨n - 1, by simp at hn; omega⟩
    unfold vecLoop
    simp only [IStream.ofChars, Bool.false_eq_true, if_false]
    refine (H.read hz hw ht hb).bind ?_
    rintro ⟨a, s⟩ ⟨ha, rfl⟩
    dsimp only
    rw [if_neg (by simp), show cs.isEmpty = false by simpa using (hcs.ne H).1]
    refine (ih (n := n) (v := v ++ [a]) (by simp at hn; omega)).mono ?_
    rintro r ⟨us, rfl, hus⟩
    exact ⟨a :: us, by simp, .cons ha hus⟩

/-- Reading stops at the first element that is refused. -/
theorem vecLoop_stop (H : EltSpec U E rep Text) {z : α} (hz : rep z 0) {rest : List Char} (hb : ∀ c ∈ rest.head?, blank c = true)
    (hne : rest ≠ []) (hr : (E.read z rest).Sat U fun r => r.2.fail = true) {cs : List Char} {xs : List R} (h : VecText Text cs xs) :
    ∀ {n : ℕ} {v : List α}, xs.length < n → (vecLoop E z n v (.ofChars (cs ++ rest))).Sat U fun r =>
      ∃ us, r.1 = v ++ us ∧ List.Forall₂ rep us xs ∧ r.2.fail = true := by
  induction h with
  | @one ws t x hw ht =>
    intro n v hn
    obtain ⟨n, rfl⟩ : ∃ k, n = k + 2 := ⟨n - 2, by simp at hn; omega⟩
    unfold vecLoop
    simp only [IStream.ofChars, Bool.false_eq_true, if_false]
    refine (H.read hz hw ht hb).bind ?_
    rintro ⟨a, s⟩ ⟨ha, rfl⟩
    dsimp only
    rw [if_neg (by simp), vecLoop, if_neg (by simpa using hne)]
    refine hr.bind fun r hf => ?_
    rw [if_pos hf]
    exact ⟨[a], rfl, .cons ha .nil, hf⟩
  | @cons ws t x cs xs hw ht hcs hb' ih =>
    intro n v hn
    obtain ⟨n, rfl⟩ : ∃ k, n = k + 1 := ⟨n - 1, by simp at hn; omega⟩
    unfold vecLoop
    simp only [IStream.ofChars, Bool.false_eq_true, if_false]
    rw [List.append_assoc]
    have hcne := (hcs.ne H).1
    refine (H.read hz hw ht (rest := cs ++ rest) (by rwa [List.head?_append_of_ne_nil _ hcne])).bind ?_
    rintro ⟨a, s⟩ ⟨ha, rfl⟩
    dsimp only
    rw [if_neg (by simp), show (cs ++ rest).isEmpty = false by simp [hcne]]
    refine (ih (n := n) (v := v ++ [a]) (by simp at hn; omega)).mono ?_
    rintro r ⟨us, h1, hus, hf⟩
    exact ⟨a :: us, by simp [h1], .cons ha hus, hf⟩

/-- An element that is read again and again without the stream ever failing. -/
theorem vecLoop_forever (H : EltSpec False E rep Text) {z : α} (hz : rep z 0) {rest : List Char} (hb : ∀ c ∈ rest.head?, blank c = true)
    (hne : rest ≠ []) (hr : ∀ n v, vecLoop E z n v (.ofChars rest) = timeout) {cs : List Char} {xs : List R}
    (h : VecText Text cs xs) : ∀ (n : ℕ) (v : List α), vecLoop E z n v (.ofChars (cs ++ rest)) = timeout := by
  induction h with
  | @one ws t x hw ht =>
    rintro (_ | n) v
    · rfl
    · obtain ⟨⟨a, s⟩, h1, ha, h2⟩ := sat_false.1 (H.read hz hw ht hb)
      dsimp only at h2
      subst h2
      unfold vecLoop
      simp only [IStream.ofChars, Bool.false_eq_true, if_false]
      rw [h1, ok_bind]
      dsimp only
      rw [if_neg (by simp), show rest.isEmpty = false by simpa using hne]
      exact hr n _
  | @cons ws t x cs xs hw ht hcs hb' ih =>
    rintro (_ | n) v
    · rfl
    · have hcne := (hcs.ne H).1
      obtain ⟨⟨a, s⟩, h1, ha, h2⟩ := sat_false.1 (H.read hz hw ht (rest := cs ++ rest) (by rwa [List.head?_append_of_ne_nil _ hcne]))
      dsimp only at h2
      subst h2
      unfold vecLoop
      simp only [IStream.ofChars, Bool.false_eq_true, if_false]
      rw [List.append_assoc, h1, ok_bind]
      dsimp only
      rw [if_neg (by simp), show (cs ++ rest).isEmpty = false by simp [hcne]]
      exact ih n _

theorem readVec_yes (H : EltSpec U E rep Text) {e : α} (he : (E.sub e e).Sat U fun z => rep z 0) {v : List α} {cs : List Char} {xs : List R}
    (h : VecText Text cs xs) {n : ℕ} (hn : xs.length < n) : (readVec E n (e :: v) cs).Sat U fun r =>
      List.Forall₂ rep r.1 xs ∧ r.2 = ⟨[], true, false⟩ := by
  unfold readVec
  refine he.bind fun z hz => (vecLoop_yes H hz h (v := []) hn).mono ?_
  rintro r ⟨us, rfl, hus⟩
  exact ⟨by simpa using hus, rfl⟩

theorem readVec_stop (H : EltSpec U E rep Text) {e : α} (he : (E.sub e e).Sat U fun z => rep z 0) {v : List α} {cs rest : List Char} {xs : List R}
    (h : (cs = [] ∧ xs = []) ∨ (VecText Text cs xs ∧ rest ≠ [] ∧ ∀ c ∈ rest.head?, blank c = true))
    (hr : ∀ z, rep z 0 → (E.read z rest).Sat U fun r => r.2.fail = true) {n : ℕ} (hn : xs.length < n) :
    (readVec E n (e :: v) (cs ++ rest)).Sat U fun r => List.Forall₂ rep r.1 xs ∧ r.2.fail = true := by
  unfold readVec
  refine he.bind fun z hz => ?_
  rcases h with ⟨rfl, rfl⟩ | ⟨h, hne, hb⟩
  · obtain ⟨n, rfl⟩ : ∃ k, n = k + 1 := ⟨n - 1, by simp at hn; omega⟩
    unfold vecLoop
    simp only [IStream.ofChars, Bool.false_eq_true, if_false, List.nil_append]
    refine (hr z hz).bind fun r hf => ?_
    rw [if_pos hf]
    exact ⟨.nil, hf⟩
  · refine (vecLoop_stop H hz hb hne (hr z hz) h (v := []) hn).mono ?_
    rintro r ⟨us, h1, h2, h3⟩
    exact ⟨by simpa [h1] using h2, h3⟩

/-! ### Printing -/

theorem vecText_intercalate {ts : List (List Char)} {xs : List R} (h : List.Forall₂ Text ts xs)
    (hne : ts ≠ []) : VecText Text (List.intercalate [' '] ts) xs ∧
      ∀ u x ts' xs', ts = u :: ts' → xs = x :: xs' → ∃ w, List.intercalate [' '] ts = u ++ w := by
  induction h with
  | nil => exact absurd rfl hne
  | @cons t x ts xs ht hts ih =>
    refine ⟨?_, ?_⟩
    · cases ts with
      | nil =>
        cases hts
        have := VecText.one (Text := Text) (ws := []) (by simp) ht
        simpa using this
      | cons s ts =>
        obtain ⟨h1, -⟩ := ih (by simp)
        rw [List.intercalate_cons_cons]
        have h2 : VecText Text (' ' :: List.intercalate [' '] (s :: ts)) xs := by
          generalize List.intercalate [' '] (s :: ts) = w at h1
          cases h1 with
          | one hw ht' =>
            rw [← List.cons_append]
            exact .one (by intro c hc; rcases List.mem_cons.1 hc with rfl | hc; rfl; exact hw c hc) ht'
          | cons hw ht' hcs hb =>
            rw [← List.cons_append, ← List.cons_append]
            exact .cons (by intro c hc; rcases List.mem_cons.1 hc with rfl | hc; rfl; exact hw c hc) ht' hcs hb
        have := VecText.cons (Text := Text) (ws := []) (by simp) ht h2 (by simp; rfl)
        simpa using this
    · intro u x ts' xs' h1 _
      cases h1
      cases ts with
      | nil => exact ⟨[], by simp⟩
      | cons s ts => rw [List.intercalate_cons_cons]; exact ⟨_, by rw [List.append_assoc]⟩

/-- The text printed for a vector. -/
theorem showVec_ok (H : EltSpec U E rep Text) {v : List α} {xs : List R} (hv : List.Forall₂ rep v xs) (hne : v ≠ []) :
    ∃ t, showVec E v = ok t ∧ VecText Text t xs ∧ (∀ c ∈ t, c = ' ' ∨ plain c = true) ∧ (∀ c ∈ t.head?, isSpace c = false) := by
  obtain ⟨ts, h1, h2⟩ := each_forall₂ hv fun b d h => H.print h
  have htne : ts ≠ [] := by
    rintro rfl
    cases h2
    cases hv
    exact hne rfl
  refine ⟨_, by unfold showVec; rw [h1, ok_bind], (vecText_intercalate h2 htne).1, ?_, ?_⟩
  · have : ∀ t ∈ ts, ∀ c ∈ t, plain c = true := by
      clear h1 htne hv
      induction h2 with
      | nil => simp
      | cons ht _ ih =>
        intro t htm c hc
        rcases List.mem_cons.1 htm with rfl | htm
        · exact (H.clean ht).2 c hc
        · exact ih t htm c hc
    clear h1 htne h2
    induction ts with
    | nil => simp [List.intercalate]
    | cons t ts ih =>
      intro c hc
      cases ts with
      | nil => simp at hc; exact Or.inr (this t (by simp) c hc)
      | cons s ts =>
        rw [List.intercalate_cons_cons] at hc
        simp only [List.mem_append, List.mem_singleton] at hc
        rcases hc with (hc | rfl) | hc
        · exact Or.inr (this t (by simp) c hc)
        · exact Or.inl rfl
        · exact ih (fun t ht => this t (by simp [ht])) c hc
  · cases h2 with
    | nil => exact absurd rfl htne
    | @cons t x ts xs ht hts =>
      obtain ⟨hn, hp⟩ := H.clean ht
      obtain ⟨w, hw⟩ := (vecText_intercalate (.cons ht hts) htne).2 t x ts xs rfl rfl
      rw [hw]
      intro c hc
      rw [List.head?_append_of_ne_nil _ hn] at hc
      have := hp c (List.mem_of_mem_head? hc)
      simp only [plain, Bool.and_eq_true] at this
      simpa using this.1.1.1

/-! ### Brackets -/

theorem dropWhile_ne {c : Char} {pre r : List Char} (h : c ∉ pre) : (pre ++ c :: r).dropWhile (· ≠ c) = c :: r := by
  rw [List.dropWhile_append_of_pos (by intro a ha; simp only [ne_eq, decide_eq_true_eq]; rintro rfl; exact h ha), List.dropWhile_cons_of_neg (by simp)]

theorem beforeLast_eq {c : Char} {a b : List Char} (h : c ∉ b) : beforeLast c (a ++ c :: b) = a := by
  unfold beforeLast
  rw [List.reverse_append, List.reverse_cons, List.append_assoc, List.singleton_append, dropWhile_ne (by simpa using h)]
  simp

theorem vecBracket_eq (n : ℕ) (v : List α) {pre body post : List Char} (h1 : '[' ∉ pre) (h2 : ']' ∉ post) :
    vecBracket E n v (pre ++ '[' :: (body ++ ']' :: post)) =
      (readVec E n v body >>= fun s => ok (if s.2.fail then none else some s.1)) := by
  unfold vecBracket
  rw [dropWhile_ne h1]
  dsimp only
  rw [if_pos (by simp), beforeLast_eq h2]

/-! ### Matrices -/

theorem ragged_fold (rows : List (TVec α)) : ∀ (a b : ℕ), ∃ m M, rows.foldl (fun (s : Nat × Nat) r =>
    (if r.length < s.1 then r.length else s.1, if s.2 < r.length then r.length else s.2)) (a, b) = (m, M) ∧
    m ≤ a ∧ b ≤ M ∧ (∀ r ∈ rows, m ≤ r.length ∧ r.length ≤ M) ∧ (m = a ∨ ∃ r ∈ rows, r.length = m) ∧
    (M = b ∨ ∃ r ∈ rows, r.length = M) := by
  induction rows with
  | nil => intro a b; exact ⟨a, b, rfl, le_rfl, le_rfl, by simp, Or.inl rfl, Or.inl rfl⟩
  | cons r rows ih =>
    intro a b
    obtain ⟨m, M, h1, h2, h3, h4, h5, h6⟩ := ih (if r.length < a then r.length else a) (if b < r.length then r.length else b)
    refine ⟨m, M, by rw [List.foldl_cons]; exact h1, ?_, ?_, ?_, ?_, ?_⟩
    · split at h2 <;> omega
    · split at h3 <;> omega
    · intro s hs
      rcases List.mem_cons.1 hs with rfl | hs
      · constructor
        · split at h2 <;> omega
        · split at h3 <;> omega
      · exact h4 s hs
    · rcases h5 with h5 | ⟨s, hs, h5⟩
      · split at h5
        · exact Or.inr ⟨r, by simp, h5.symm⟩
        · exact Or.inl h5
      · exact Or.inr ⟨s, by simp [hs], h5⟩
    · rcases h6 with h6 | ⟨s, hs, h6⟩
      · split at h6
        · exact Or.inr ⟨r, by simp, h6.symm⟩
        · exact Or.inl h6
      · exact Or.inr ⟨s, by simp [hs], h6⟩

/-- `check_ragged` accepts exactly the non-empty lists of rows of equal length, up to the largest `int`. -/
theorem checkRagged_iff {rows : List (TVec α)} (hb : ∀ r ∈ rows, r.length ≤ 0x7fffffff) (c : ℕ) :
    checkRagged rows = some c ↔ rows ≠ [] ∧ ∀ r ∈ rows, r.length = c := by
  obtain ⟨m, M, h1, h2, h3, h4, h5, h6⟩ := ragged_fold rows 0x7fffffff 0
  unfold checkRagged
  rw [h1]
  dsimp only
  constructor
  · intro h
    split at h
    · cases h
    · rename_i he
      have h : M = c := by simpa using h
      subst h
      have he : m = M := by simpa using he
      refine ⟨?_, fun r hr => ?_⟩
      · rintro rfl
        simp at h5 h6
        omega
      · have := h4 r hr; omega
  · rintro ⟨hne, hr⟩
    have hm : m = c := by
      rcases h5 with h5 | ⟨r, hr', h5⟩
      · obtain ⟨r, rs, rfl⟩ := List.exists_cons_of_ne_nil hne
        have := hr r (by simp)
        have := hb r (by simp)
        have := (h4 r (by simp)).1
        omega
      · rw [← h5]; exact hr r hr'
    have hM : M = c := by
      rcases h6 with h6 | ⟨r, hr', h6⟩
      · obtain ⟨r, rs, rfl⟩ := List.exists_cons_of_ne_nil hne
        have := hr r (by simp)
        have := (h4 r (by simp)).2
        omega
      · rw [← h6]; exact hr r hr'
    rw [hm, hM]; simp

theorem tokens_brackets {us : List (List Char)} (h1 : ∀ u ∈ us, '[' ∉ u) (h2 : ∀ u ∈ us, u ≠ []) :
    tokens '[' (us.map ('[' :: ·)).flatten = us := by
  cases us with
  | nil => rfl
  | cons u us =>
    have e : ((u :: us).map ('[' :: ·)).flatten = '[' :: List.intercalate ['['] (u :: us) := by
      clear h1 h2
      induction us generalizing u with
      | nil => simp
      | cons s us ih =>
        rw [List.intercalate_cons_cons, List.map_cons, List.flatten_cons, ih s]
        simp
    rw [e]
    have := tokens_intercalate (sep := '[') h1 h2
    unfold tokens at this ⊢
    rw [List.splitOnP_cons, if_pos (by simp), List.filter_cons]
    simpa using this

theorem getLine_line {size : ℕ} {l rest : List Char} (h : '\n' ∉ l) (hl : l.length < size) :
    getLine size (l ++ '\n' :: rest) = (l, rest, false, false) := by
  have ht : (l ++ '\n' :: rest).takeWhile (· ≠ '\n') = l := by
    rw [List.takeWhile_append_of_pos (by intro a ha; simp only [ne_eq, decide_eq_true_eq]; rintro rfl; exact h ha), List.takeWhile_cons_of_neg (by simp)]
    simp
  unfold getLine
  rw [ht, dropWhile_ne h]
  simp [hl]

theorem getLine_end {size : ℕ} {l : List Char} (h : '\n' ∉ l) (hl : l.length < size) :
    getLine size l = (l, [], true, l.isEmpty) := by
  have ht : l.takeWhile (· ≠ '\n') = l := by
    rw [List.takeWhile_eq_self_iff]; intro a ha; simp only [ne_eq, decide_eq_true_eq]; rintro rfl; exact h ha
  have hd : l.dropWhile (· ≠ '\n') = [] := by
    rw [List.dropWhile_eq_nil_iff]; intro a ha; simp only [ne_eq, decide_eq_true_eq]; rintro rfl; exact h ha
  unfold getLine
  rw [ht, hd]
  simp [hl]

/-- A line that holds the text of a row: white space, the row, white space, and perhaps a comment. -/
def RowLine (Text : List Char → R → Prop) (lead : ℕ) (l : List Char) (xs : List R) : Prop :=
  ∃ ld body tr cm, l = ld ++ body ++ tr ++ cm ∧ ld.length = lead ∧ (∀ c ∈ ld, isSpace c = true) ∧ (∀ c ∈ tr, isSpace c = true) ∧
    VecText Text body xs ∧ (∀ c ∈ body.head?, isSpace c = false) ∧ (cm = [] ∨ cm.head? = some '#') ∧ '\n' ∉ l

/-- A line without content. -/
def EmptyLine (lead : ℕ) (l : List Char) : Prop :=
  ∃ ld cm, l = ld ++ cm ∧ ld.length = lead ∧ (∀ c ∈ ld, isSpace c = true) ∧ (cm = [] ∨ cm.head? = some '#') ∧ '\n' ∉ l

theorem space_hash {c : Char} (h : isSpace c = true) : c ≠ '#' := by rintro rfl; revert h; decide

theorem takeWhile_hash {a cm : List Char} (h : '#' ∉ a) (hc : cm = [] ∨ cm.head? = some '#') :
    (a ++ cm).takeWhile (· ≠ '#') = a := by
  rw [List.takeWhile_append_of_pos (by intro x hx; simp only [ne_eq, decide_eq_true_eq]; rintro rfl; exact h hx)]
  rcases hc with rfl | hc
  · simp
  · cases cm with
    | nil => cases hc
    | cons c cm => simp at hc; subst hc; simp

/-- What is left of a row line. -/
theorem strip_row (H : EltSpec U E rep Text) {lead : ℕ} {l : List Char} {xs : List R} (h : RowLine Text lead l xs) :
    ∃ body, VecText Text body xs ∧
      ((l.takeWhile (· ≠ '#')).takeWhile isSpace).length = lead ∧
      (((l.takeWhile (· ≠ '#')).dropWhile isSpace).reverse.dropWhile isSpace).reverse = body ∧ body.all isSpace = false := by
  obtain ⟨ld, body, tr, cm, rfl, h1, h2, h3, h4, h5, h6, h7⟩ := h
  have hbody := h4.chars H
  have hhash : '#' ∉ ld ++ body ++ tr := by
    intro hc
    simp only [List.mem_append] at hc
    rcases hc with (hc | hc) | hc
    · exact space_hash (h2 _ hc) rfl
    · exact (plain_not (hbody _ hc)).1 rfl
    · exact space_hash (h3 _ hc) rfl
  obtain ⟨u, e, hu, he⟩ := h4.last H
  have hne := (h4.ne H).1
  rw [takeWhile_hash hhash h6]
  refine ⟨body, h4, ?_, ?_, ?_⟩
  · rw [List.append_assoc, List.takeWhile_append_of_pos h2]
    cases body with
    | nil => exact absurd rfl hne
    | cons c body => rw [List.cons_append, List.takeWhile_cons_of_neg (by simp [h5 c (by simp)])]; simpa using h1
  · rw [List.append_assoc, List.dropWhile_append_of_pos h2]
    have : (body ++ tr).dropWhile isSpace = body ++ tr := by
      cases body with
      | nil => exact absurd rfl hne
      | cons c body => rw [List.cons_append, List.dropWhile_cons_of_neg (by simp [h5 c (by simp)])]
    rw [this, List.reverse_append, List.dropWhile_append_of_pos (by simpa using h3), hu, List.reverse_append,
      List.reverse_singleton, List.singleton_append, List.dropWhile_cons_of_neg (by simp [he])]
    simp
  · rw [hu]; simp [he]

theorem strip_empty {lead : ℕ} {l : List Char} (h : EmptyLine lead l) :
    ((l.takeWhile (· ≠ '#')).takeWhile isSpace).length = lead ∧
      (((l.takeWhile (· ≠ '#')).dropWhile isSpace).reverse.dropWhile isSpace).reverse.all isSpace = true := by
  obtain ⟨ld, cm, rfl, h1, h2, h3, h4⟩ := h
  rw [takeWhile_hash (fun hc => space_hash (h2 _ hc) rfl) h3]
  have ht : ld.takeWhile isSpace = ld := List.takeWhile_eq_self_iff.2 h2
  have hd : ld.dropWhile isSpace = [] := List.dropWhile_eq_nil_iff.2 h2
  rw [ht, hd]
  exact ⟨h1, rfl⟩

/-- Lines of rows, the first of them read into the buffer at `d`, the line after the last at `d'`; every one fits. -/
inductive Rows (Text : List Char → R → Prop) : ℕ → List (List Char) → List (List R) → ℕ → Prop
  | nil {d} : Rows Text d [] [] d
  | cons {d d' lead l xs ls xss} : RowLine Text lead l xs → d + l.length + 1 ≤ bufSize → Rows Text (d + lead) ls xss d' →
    Rows Text d (l :: ls) (xs :: xss) d'

/-- Lines without content. -/
inductive Empties : ℕ → List (List Char) → ℕ → Prop
  | nil {d} : Empties d [] d
  | cons {d d' lead l ls} : EmptyLine lead l → d + l.length + 1 ≤ bufSize → Empties (d + lead) ls d' → Empties d (l :: ls) d'

/-- The text of some lines. -/
def lines (ls : List (List Char)) : List Char := (ls.map (· ++ ['\n'])).flatten

theorem lines_cons (l : List Char) (ls : List (List Char)) (rest : List Char) :
    lines (l :: ls) ++ rest = l ++ '\n' :: (lines ls ++ rest) := by simp [lines]

theorem length_lines (ls : List (List Char)) : ls.length ≤ (lines ls).length := by
  induction ls with
  | nil => simp
  | cons l ls ih => have := congrArg List.length (lines_cons l ls []); simp at this ⊢; omega

theorem matLoop_empties (E : EltIO α) {k : ℕ} {zero : α} {d d' : ℕ} {ls : List (List Char)} (h : Empties d ls d') :
    ∀ (n : ℕ) (cs : List Char), ls.length ≤ n →
      matLoop E k zero n d [] (lines ls ++ cs) = matLoop E k zero (n - ls.length) d' [] cs := by
  induction h with
  | nil => intro n cs _; rfl
  | @cons d d' lead l ls hl hd _ ih =>
    intro n cs hn
    obtain ⟨n, rfl⟩ : ∃ k, n = k + 1 := ⟨n - 1, by simp at hn; omega⟩
    have hnl : '\n' ∉ l := by obtain ⟨_, _, _, _, _, _, h⟩ := hl; exact h
    obtain ⟨h1, h2⟩ := strip_empty hl
    rw [lines_cons]
    conv_lhs => unfold matLoop
    rw [getLine_line hnl (by omega)]
    dsimp only
    rw [if_neg (by omega), if_neg (by simp), if_neg (by simp), if_pos h2, if_pos rfl, h1, ih n cs (by simp at hn; omega)]
    simp

theorem matLoop_rows (H : EltSpec U E rep Text) {k : ℕ} {zero : α} (hz : rep zero 0) {d d' : ℕ} {ls : List (List Char)}
    {xss : List (List R)} (h : Rows Text d ls xss d') : ∀ (n : ℕ) (rows : List (TVec α)) (cs : List Char), ls.length ≤ n →
      (∀ xs ∈ xss, xs.length < k) → ∀ {P : List (TVec α) × IStream × Left → Prop},
      (∀ us, List.Forall₂ (List.Forall₂ rep) us xss → (matLoop E k zero (n - ls.length) d' (rows ++ us) cs).Sat U P) →
      (matLoop E k zero n d rows (lines ls ++ cs)).Sat U P := by
  induction h with
  | nil =>
    intro n rows cs _ _ P hP
    have := hP [] .nil
    simpa [lines] using this
  | @cons d d' lead l xs ls xss hl hd _ ih =>
    intro n rows cs hn hk P hP
    obtain ⟨n, rfl⟩ : ∃ k, n = k + 1 := ⟨n - 1, by simp at hn; omega⟩
    have hnl : '\n' ∉ l := by obtain ⟨_, _, _, _, _, _, _, _, _, _, _, h⟩ := hl; exact h
    obtain ⟨body, h1, h2, h3, h4⟩ := strip_row H hl
    rw [lines_cons]
    unfold matLoop
    rw [getLine_line hnl (by omega)]
    dsimp only
    rw [if_neg (by omega), if_neg (by simp), if_neg (by simp), h3, if_neg (by simp [h4]), h2]
    refine (readVec_yes H (H.sub hz) h1 (v := []) (hk xs (by simp))).bind fun r hr => ?_
    rw [if_neg (by simp [hr.2])]
    refine ih n (rows ++ [r.1]) cs (by simp at hn; omega) (fun xs hx => hk xs (by simp [hx])) fun us hus => ?_
    have := hP (r.1 :: us) (.cons hr.1 hus)
    simpa using this

theorem Rows.length_le (H : EltSpec U E rep Text) {d d' : ℕ} {ls : List (List Char)} {xss : List (List R)}
    (h : Rows Text d ls xss d') : ls.length = xss.length ∧ ∀ xs ∈ xss, xs.length < bufSize ∧ xs ≠ [] := by
  induction h with
  | nil => simp
  | cons hl hd _ ih =>
    refine ⟨by simp [ih.1], fun xs hx => ?_⟩
    rcases List.mem_cons.1 hx with rfl | hx
    · obtain ⟨ld, body, tr, cm, rfl, _, _, _, h4, _⟩ := hl
      have := h4.length_le H
      simp at hd
      exact ⟨by omega, (h4.ne H).2⟩
    · exact ih.2 xs hx

/-- How the rows end: with the text, what comes after the last newline being dropped, or with an empty line. -/
def Tail (d : ℕ) (tail : List Char) (s : IStream) : Prop :=
  ('\n' ∉ tail ∧ d + tail.length + 1 ≤ bufSize ∧ s = ⟨[], true, false⟩) ∨
    ∃ lead e rest, tail = e ++ '\n' :: rest ∧ EmptyLine lead e ∧ d + e.length + 1 ≤ bufSize ∧ s = ⟨rest, rest.isEmpty, false⟩

/-- The rows of a matrix. -/
def MRep (rep : α → R → Prop) (A : TMat α) (xss : List (List R)) : Prop :=
  A.num_rows = xss.length ∧ (∀ xs ∈ xss, xs.length = A.num_cols) ∧ List.Forall₂ (List.Forall₂ rep) A.rows xss

/-- A matrix that can be read into: it has an element, and subtracting it from itself gives zero. -/
def Primed (U : Prop) (E : EltIO α) (rep : α → R → Prop) (A : TMat α) : Prop :=
  A.rows ≠ [] ∧ 1 ≤ A.num_rows ∧ 1 ≤ A.num_cols ∧ ∃ e, A.get 0 0 = ok e ∧ (E.sub e e).Sat U fun z => rep z 0

theorem forall₂_len {us : List (TVec α)} {xss : List (List R)} (h : List.Forall₂ (List.Forall₂ rep) us xss) (P : ℕ → Prop) :
    (∀ u ∈ us, P u.length) ↔ ∀ xs ∈ xss, P xs.length := by
  induction h with
  | nil => simp
  | cons h1 _ ih => simp [ih, h1.length_eq]

theorem matLoop_tail (E : EltIO α) {k : ℕ} {zero : α} {n d : ℕ} {rows : List (TVec α)} (hr : rows ≠ []) {tail : List Char} {s : IStream}
    (h : Tail d tail s) : ∃ s', matLoop E k zero (n + 1) d rows tail = ok (rows, s', .done) ∧
      (if s'.peek.1 = none then { s'.peek.2 with eof := true } else s'.peek.2) = s := by
  unfold matLoop
  rcases h with ⟨h1, h2, rfl⟩ | ⟨lead, e, rest, rfl, he, h2, rfl⟩
  · rw [getLine_end h1 (by omega)]
    dsimp only
    rw [if_neg (by omega), if_pos rfl]
    exact ⟨_, rfl, rfl⟩
  · have hnl : '\n' ∉ e := by obtain ⟨_, _, _, _, _, _, h⟩ := he; exact h
    rw [getLine_line hnl (by omega)]
    dsimp only
    rw [if_neg (by omega), if_neg (by simp), if_neg (by simp), if_pos (strip_empty he).2, if_neg hr]
    refine ⟨_, rfl, ?_⟩
    cases rest <;> rfl

/-- Reading a matrix. -/
theorem readMat_sat (H : EltSpec U E rep Text) {A : TMat α} (hA : Primed U E rep A) {k d0 d1 : ℕ} {els ls : List (List Char)}
    {xss : List (List R)} (hels : Empties 0 els d0) (hls : Rows Text d0 ls xss d1) (hne : xss ≠ []) (hk : ∀ xs ∈ xss, xs.length < k)
    {tail : List Char} {s : IStream} (ht : Tail d1 tail s) :
    (readMat E k A (lines els ++ (lines ls ++ tail))).Sat U fun r =>
      ((∃ c, ∀ xs ∈ xss, xs.length = c) → MRep rep r.1 xss ∧ r.2 = s) ∧
      (¬ (∃ c, ∀ xs ∈ xss, xs.length = c) → r.2.fail = true) := by
  obtain ⟨hA1, hA2, hA3, e, hA4, hA5⟩ := hA
  unfold readMat
  rw [if_neg (by rintro (h | h | h); exact hA1 h; omega; omega), hA4, ok_bind, ok_bind]
  refine hA5.bind fun z hz => ?_
  have hl1 := length_lines els
  have hl2 := length_lines ls
  rw [matLoop_empties E hels _ _ (by simp; omega)]
  refine Sat.bind (P := fun r => ∃ us s', List.Forall₂ (List.Forall₂ rep) us xss ∧ r = (us, s', .done) ∧
    (if s'.peek.1 = none then { s'.peek.2 with eof := true } else s'.peek.2) = s) ?_ ?_
  · refine matLoop_rows H hz hls _ _ _ (by simp; omega) hk fun us hus => ?_
    have : us ≠ [] := by rintro rfl; cases hus; exact hne rfl
    obtain ⟨m, hm⟩ : ∃ m, (lines els ++ (lines ls ++ tail)).length + 1 - els.length - ls.length = m + 1 :=
      ⟨(lines els ++ (lines ls ++ tail)).length - els.length - ls.length, by simp; omega⟩
    rw [hm, List.nil_append]
    obtain ⟨s', h1, h2⟩ := matLoop_tail E (k := k) (zero := z) (n := m) this ht
    rw [h1]
    exact ⟨us, s', hus, rfl, h2⟩
  · rintro _ ⟨us, s', hus, rfl, hs⟩
    have hune : us ≠ [] := by rintro rfl; cases hus; exact hne rfl
    have hlen := (hls.length_le H).2
    have hb : ∀ u ∈ us, u.length ≤ 0x7fffffff := (forall₂_len hus (· ≤ 0x7fffffff)).2 fun xs hx => by
      have := (hlen xs hx).1
      unfold bufSize at this
      omega
    unfold matFinish
    dsimp only
    rw [hs, if_neg hune]
    constructor
    · rintro ⟨c, hc⟩
      have := (checkRagged_iff hb c).2 ⟨hune, (forall₂_len hus (· = c)).2 hc⟩
      rw [this]
      exact ⟨⟨hus.length_eq, hc, hus⟩, rfl⟩
    · intro h
      cases hcr : checkRagged us with
      | none => rfl
      | some c => exact absurd ⟨c, (forall₂_len hus (· = c)).1 ((checkRagged_iff hb c).1 hcr).2⟩ h

/-- A row that cannot be read. -/
theorem readMat_bad (H : EltSpec U E rep Text) {A : TMat α} (hA : Primed U E rep A) {k d0 d1 : ℕ} {els ls : List (List Char)}
    {xss : List (List R)} (hels : Empties 0 els d0) (hls : Rows Text d0 ls xss d1) (hk : ∀ xs ∈ xss, xs.length < k)
    {l : List Char} (hl : '\n' ∉ l) (hfit : d1 + l.length + 1 ≤ bufSize)
    {t : List Char} (htl : t = (((l.takeWhile (· ≠ '#')).dropWhile isSpace).reverse.dropWhile isSpace).reverse)
    (hsp : t.all isSpace = false) (hbad : ∀ z, rep z 0 → (readVec E k [z] t).Sat U fun r => r.2.fail = true)
    (rest : List Char) :
    (readMat E k A (lines els ++ (lines ls ++ (l ++ '\n' :: rest)))).Sat U fun r =>
      r.2 = ⟨rest, false, true⟩ := by
  obtain ⟨hA1, hA2, hA3, e, hA4, hA5⟩ := hA
  unfold readMat
  rw [if_neg (by rintro (h | h | h); exact hA1 h; omega; omega), hA4, ok_bind, ok_bind]
  refine hA5.bind fun z hz => ?_
  have hl1 := length_lines els
  have hl2 := length_lines ls
  rw [matLoop_empties E hels _ _ (by simp; omega)]
  refine Sat.bind (P := fun r => r.2 = (⟨rest, false, true⟩, .early)) ?_ ?_
  · refine matLoop_rows H hz hls _ _ _ (by simp; omega) hk fun us hus => ?_
    obtain ⟨m, hm⟩ : ∃ m, (lines els ++ (lines ls ++ (l ++ '\n' :: rest))).length + 1 - els.length - ls.length = m + 1 :=
      ⟨(lines els ++ (lines ls ++ (l ++ '\n' :: rest))).length - els.length - ls.length, by simp; omega⟩
    rw [hm]
    unfold matLoop
    rw [getLine_line hl (by omega)]
    dsimp only
    rw [if_neg (by omega), if_neg (by simp), if_neg (by simp), ← htl, if_neg (by simp [hsp])]
    refine (hbad z hz).bind fun r hr => ?_
    rw [if_pos hr]
    exact rfl
  · rintro ⟨us, s, lf⟩ h
    cases h
    exact rfl

/-- The buffer is left behind. -/
theorem readMat_ub (H : EltSpec False E rep Text) {A : TMat α} (hA : Primed False E rep A) {k d0 d1 : ℕ} {els ls : List (List Char)}
    {xss : List (List R)} (hels : Empties 0 els d0) (hls : Rows Text d0 ls xss d1) (hk : ∀ xs ∈ xss, xs.length < k)
    {l : List Char} (hl : '\n' ∉ l) (hfit : l.length < bufSize) (hbig : bufSize < d1 + l.length + 1) (rest : List Char) :
    readMat E k A (lines els ++ (lines ls ++ (l ++ '\n' :: rest))) = ub := by
  obtain ⟨hA1, hA2, hA3, e, hA4, hA5⟩ := hA
  obtain ⟨z, hz1, hz⟩ := sat_false.1 hA5
  unfold readMat
  rw [if_neg (by rintro (h | h | h); exact hA1 h; omega; omega), hA4, ok_bind, ok_bind, hz1, ok_bind]
  have hl1 := length_lines els
  have hl2 := length_lines ls
  rw [matLoop_empties E hels _ _ (by simp; omega)]
  have key : ∀ {d d' : ℕ} {ls : List (List Char)} {xss : List (List R)}, Rows Text d ls xss d' → (∀ xs ∈ xss, xs.length < k) →
      bufSize < d' + l.length + 1 → ∀ (n : ℕ) (rows : List (TVec α)), ls.length < n →
      matLoop E k z n d rows (lines ls ++ (l ++ '\n' :: rest)) = ub := by
    intro d d' ls xss h
    induction h with
    | nil =>
      intro _ hb n rows hn
      obtain ⟨n, rfl⟩ : ∃ k, n = k + 1 := ⟨n - 1, by simp at hn; omega⟩
      show matLoop E k z (n + 1) _ rows (l ++ '\n' :: rest) = ub
      unfold matLoop
      rw [getLine_line hl hfit]
      dsimp only
      rw [if_pos hb]
    | @cons d d' lead l' xs ls xss hl' hd _ ih =>
      intro hk hb n rows hn
      obtain ⟨n, rfl⟩ : ∃ k, n = k + 1 := ⟨n - 1, by simp at hn; omega⟩
      have hnl : '\n' ∉ l' := by obtain ⟨_, _, _, _, _, _, _, _, _, _, _, h⟩ := hl'; exact h
      obtain ⟨body, h1, h2, h3, h4⟩ := strip_row H hl'
      obtain ⟨r, hr1, hr2⟩ := sat_false.1 (readVec_yes H (H.sub hz) h1 (v := []) (hk xs (by simp)))
      rw [lines_cons]
      unfold matLoop
      rw [getLine_line hnl (by omega)]
      dsimp only
      rw [if_neg (by omega), if_neg (by simp), if_neg (by simp), h3, if_neg (by simp [h4]), h2, hr1, ok_bind, if_neg (by simp [hr2.2])]
      exact ih (fun xs hx => hk xs (by simp [hx])) hb n _ (by simp at hn; omega)
  rw [key hls hk hbig _ _ (by simp; omega)]
  rfl

/-- The text printed for a matrix. -/
theorem showMat_ok (H : EltSpec U E rep Text) {A : TMat α} {xss : List (List R)} (hA : MRep rep A xss) (hc : 1 ≤ A.num_cols) :
    ∃ ts, showMat E A = ok (lines ts) ∧ List.Forall₂ (fun t xs => RowLine Text 0 t xs) ts xss ∧
      List.Forall₂ (fun v t => showVec E v = ok t) A.rows ts := by
  have key : ∀ {us : List (TVec α)} {xss : List (List R)}, List.Forall₂ (List.Forall₂ rep) us xss → (∀ xs ∈ xss, 1 ≤ xs.length) →
      ∃ ts, each (showVec E) us = ok ts ∧ List.Forall₂ (fun t xs => RowLine Text 0 t xs) ts xss ∧
        List.Forall₂ (fun v t => showVec E v = ok t) us ts := by
    intro us xss h
    induction h with
    | nil => intro _; exact ⟨[], rfl, .nil, .nil⟩
    | @cons u xs us xss hu _ ih =>
      intro hl
      obtain ⟨ts, h1, h2, h3⟩ := ih fun xs hx => hl xs (by simp [hx])
      have hune : u ≠ [] := by
        rintro rfl
        cases hu
        have := hl [] (by simp)
        simp at this
      obtain ⟨t, h4, h5, h6, h7⟩ := showVec_ok H hu hune
      refine ⟨t :: ts, by rw [each, h4, ok_bind, h1, ok_bind], .cons ?_ h2, .cons h4 h3⟩
      refine ⟨[], t, [], [], by simp, rfl, by simp, by simp, h5, h7, Or.inl rfl, fun hc => ?_⟩
      rcases h6 _ hc with h | h
      · exact absurd h (by decide)
      · revert h; decide
  obtain ⟨ts, h1, h2, h3⟩ := key hA.2.2 fun xs hx => by rw [hA.2.1 xs hx]; exact hc
  refine ⟨ts, ?_, h2, h3⟩
  unfold showMat
  rw [List.take_of_length_le (by rw [hA.2.2.length_eq, hA.1]), h1, ok_bind]
  rfl

theorem rows_of {ts : List (List Char)} {xss : List (List R)} (h : List.Forall₂ (fun t xs => RowLine Text 0 t xs) ts xss)
    (hl : ∀ t ∈ ts, t.length < bufSize) : Rows Text 0 ts xss 0 := by
  induction h with
  | nil => exact .nil
  | cons h _ ih =>
    refine .cons h (by have := hl _ (List.mem_cons_self ..); omega) (ih fun t ht => hl t (by simp [ht]))

/-! ### Matrices in brackets -/

theorem bracketRows_sat (H : EltSpec U E rep Text) {z : α} (hz : rep z 0) {n : ℕ} {us : List (List Char × List Char)}
    {xss : List (List R)} (h : List.Forall₂ (fun u xs => VecText Text u.1 xs ∧ ']' ∉ u.2) us xss) (hn : ∀ xs ∈ xss, xs.length < n) :
    (bracketRows E n z (us.map fun u => u.1 ++ ']' :: u.2)).Sat U fun o =>
      ∃ rows, o = some rows ∧ List.Forall₂ (List.Forall₂ rep) rows xss := by
  induction h with
  | nil => exact ⟨[], rfl, .nil⟩
  | @cons u xs us xss hu _ ih =>
    rw [List.map_cons, bracketRows]
    have := vecBracket_eq (E := E) n [z] (pre := []) (body := u.1) (post := u.2) (by simp) hu.2
    rw [List.nil_append] at this
    rw [this]
    refine Sat.bind (P := fun o => ∃ r, o = some r ∧ List.Forall₂ rep r xs) ?_ ?_
    · refine (readVec_yes H (H.sub hz) hu.1 (v := []) (hn xs (by simp))).bind fun r hr => ?_
      rw [hr.2]
      exact ⟨_, rfl, hr.1⟩
    · rintro _ ⟨r, rfl, hr⟩
      refine (ih fun xs hx => hn xs (by simp [hx])).bind ?_
      rintro _ ⟨rows, rfl, hrows⟩
      exact ⟨_, rfl, .cons hr hrows⟩

theorem beforeLast_brackets {bl body post pre : List Char} (h1 : '[' ∉ pre) (h2 : ']' ∉ post) (h3 : ∀ c ∈ bl, c = ' ' ∨ c = '\t')
    (h4 : ∀ c ∈ body.head?, c ≠ ' ' ∧ c ≠ '\t') :
    (pre ++ '[' :: (bl ++ body ++ ']' :: post)).dropWhile (· ≠ '[') = '[' :: (bl ++ body ++ ']' :: post) ∧
    (beforeLast ']' (bl ++ body ++ ']' :: post)).dropWhile (fun c => c = ' ' || c = '\t') = body := by
  refine ⟨dropWhile_ne h1, ?_⟩
  rw [beforeLast_eq h2, List.dropWhile_append_of_pos (by intro c hc; simpa using h3 c hc)]
  cases body with
  | nil => rfl
  | cons c body => rw [List.dropWhile_cons_of_neg]; have := h4 c (by simp); simp [this.1, this.2]

theorem matBracket_rows (H : EltSpec U E rep Text) {A : TMat α} (hA : Primed U E rep A) {n : ℕ} {pre bl post : List Char}
    {us : List (List Char × List Char)} {xss : List (List R)} (h1 : '[' ∉ pre) (h2 : ']' ∉ post) (h3 : ∀ c ∈ bl, c = ' ' ∨ c = '\t')
    (h : List.Forall₂ (fun u xs => VecText Text u.1 xs ∧ '[' ∉ u.2 ∧ ']' ∉ u.2) us xss) (hne : us ≠ []) (hn : ∀ xs ∈ xss, xs.length < n)
    (hlen : ∀ xs ∈ xss, xs.length ≤ 0x7fffffff) :
    (matBracket E n A (pre ++ '[' :: (bl ++ (us.map fun u => '[' :: (u.1 ++ ']' :: u.2)).flatten ++ ']' :: post))).Sat U fun o =>
      ((∃ c, ∀ xs ∈ xss, xs.length = c) → ∃ B, o = some B ∧ MRep rep B xss) ∧
      (¬ (∃ c, ∀ xs ∈ xss, xs.length = c) → o = none) := by
  obtain ⟨hA1, hA2, hA3, e, hA4, hA5⟩ := hA
  have hbr := beforeLast_brackets (body := (us.map fun u => '[' :: (u.1 ++ ']' :: u.2)).flatten) h1 h2 h3 (by
    cases us with
    | nil => exact absurd rfl hne
    | cons u us => intro c hc; simp at hc; subst hc; decide)
  unfold matBracket
  rw [if_neg (by rintro (h | h | h); exact hA1 h; omega; omega), hA4, ok_bind, ok_bind]
  refine hA5.bind fun z hz => ?_
  rw [hbr.1]
  dsimp only
  rw [if_pos (by simp), hbr.2, if_pos (by
    cases us with
    | nil => exact absurd rfl hne
    | cons u us => simp)]
  have hmap : (us.map fun u => '[' :: (u.1 ++ ']' :: u.2)) = (us.map fun u => u.1 ++ ']' :: u.2).map ('[' :: ·) := by simp
  have hno : ∀ t ∈ us.map (fun u => u.1 ++ ']' :: u.2), '[' ∉ t ∧ t ≠ [] := by
    clear hmap hbr hne hn hlen
    induction h with
    | nil => simp
    | cons hu _ ih =>
      intro t ht
      rcases List.mem_cons.1 ht with rfl | ht
      · refine ⟨fun hc => ?_, by simp⟩
        simp only [List.mem_append, List.mem_cons] at hc
        rcases hc with hc | hc | hc
        · exact (plain_not (hu.1.chars H _ hc)).2.1 rfl
        · exact absurd hc (by decide)
        · exact hu.2.1 hc
      · exact ih t ht
  rw [hmap, tokens_brackets (fun t ht => (hno t ht).1) fun t ht => (hno t ht).2]
  refine (bracketRows_sat H hz (h.imp fun _ _ h => ⟨h.1, h.2.2⟩) hn).bind ?_
  rintro _ ⟨rows, rfl, hrows⟩
  dsimp only
  have hrne : rows ≠ [] := by
    rintro rfl
    cases hrows
    cases h
    exact hne rfl
  have hb : ∀ r ∈ rows, r.length ≤ 0x7fffffff := (forall₂_len hrows (· ≤ 0x7fffffff)).2 hlen
  constructor
  · rintro ⟨c, hc⟩
    rw [(checkRagged_iff hb c).2 ⟨hrne, (forall₂_len hrows (· = c)).2 hc⟩]
    exact ⟨_, rfl, hrows.length_eq, hc, hrows⟩
  · intro hnc
    cases hcr : checkRagged rows with
    | none => rfl
    | some c => exact absurd ⟨c, (forall₂_len hrows (· = c)).1 ((checkRagged_iff hb c).1 hcr).2⟩ hnc

theorem matBracket_col (H : EltSpec U E rep Text) {A : TMat α} (hA : Primed U E rep A) {n : ℕ} {pre bl body post : List Char}
    {xs : List R} (h1 : '[' ∉ pre) (h2 : ']' ∉ post) (h3 : ∀ c ∈ bl, c = ' ' ∨ c = '\t') (h4 : ∀ c ∈ body.head?, c ≠ ' ' ∧ c ≠ '\t')
    (h : VecText Text body xs) (hn : xs.length < n) :
    (matBracket E n A (pre ++ '[' :: (bl ++ body ++ ']' :: post))).Sat U fun o =>
      ∃ B, o = some B ∧ MRep rep B (xs.map ([·])) ∧ B.num_cols = 1 := by
  obtain ⟨hA1, hA2, hA3, e, hA4, hA5⟩ := hA
  have hbr := beforeLast_brackets (body := body) h1 h2 h3 h4
  unfold matBracket
  rw [if_neg (by rintro (h | h | h); exact hA1 h; omega; omega), hA4, ok_bind, ok_bind]
  refine hA5.bind fun z hz => ?_
  rw [hbr.1]
  dsimp only
  rw [if_pos (by simp), hbr.2, if_neg (fun hc => (plain_not (h.chars H _ hc)).2.1 rfl)]
  refine (readVec_yes H (H.sub hz) h (v := []) hn).bind fun r hr => ?_
  rw [hr.2]
  simp only [Bool.false_eq_true, if_false]
  refine ⟨_, rfl, ⟨by simp [hr.1.length_eq], by simp, ?_⟩, rfl⟩
  obtain ⟨h5, -⟩ := hr
  dsimp only
  generalize r.1 = l at h5
  clear h hn
  induction h5 with
  | nil => exact .nil
  | cons h _ ih => exact .cons (.cons h .nil) ih

end Spffl.VText
