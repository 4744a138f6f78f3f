import Verif.Model.PolyText
import Verif.Proof.Scan
import Verif.Proof.Text
import Verif.Proof.CMod
import Verif.Proof.Cyclo4
import Verif.Proof.Cyclo2
import Verif.Proof.F2Text

/-!
# Polynomials as text: lemmas
-/

namespace Spffl.PText
open Res Scan Polynomial CPoly

/-! ### The polynomial with given coefficients, the highest first -/

section
variable {R : Type} [CommRing R]

/-- The polynomial with these coefficients, the highest first: `((c₀ x + c₁) x + c₂) x + …`. -/
noncomputable def horner (l : List R) : R[X] := l.foldl (fun f c => f * X + C c) 0

theorem horner_snoc (l : List R) (c : R) : horner (l ++ [c]) = horner l * X + C c := by
  simp [horner, List.foldl_append]

theorem coeff_horner (l : List R) (i : ℕ) : (horner l).coeff i = l.reverse.getD i 0 := by
  induction l using List.reverseRecOn generalizing i with
  | nil => simp [horner]
  | append_singleton l c ih =>
    rw [horner_snoc]
    cases i with
    | zero => simp
    | succ i => simp [ih]

theorem natDegree_horner (l : List R) : (horner l).natDegree ≤ l.length - 1 := by
  rw [natDegree_le_iff_coeff_eq_zero]
  intro j hj
  rw [coeff_horner, List.getD_eq_default]
  simp; omega

/-- The coefficients of `f`, the highest first. -/
theorem horner_coeffs (f : R[X]) {n : ℕ} (h : f.natDegree < n) :
    horner ((List.range n).reverse.map f.coeff) = f := by
  ext i
  rw [coeff_horner, ← List.map_reverse, List.reverse_reverse, List.getD_eq_getElem?_getD, List.getElem?_map]
  rcases Nat.lt_or_ge i n with hi | hi
  · simp [hi]
  · rw [List.getElem?_eq_none (by simpa using hi), coeff_eq_zero_of_natDegree_lt (by omega)]
    rfl

end

/-! ### Reading the coefficients -/

section
variable {U : Prop} {α β R : Type} [CommRing R] {O : CoefOps α} {rep : α → R → Prop} {ord : R → R → Prop}

/-- `one` reads exactly the texts that `Reads` gives a meaning to. -/
structure OneSpec (U : Prop) (rep : α → R → Prop) (one : β → Res (Option α)) (Reads : β → R → Prop) : Prop where
  yes : ∀ t x, Reads t x → (one t).Sat U fun o => ∃ a, o = some a ∧ rep a x
  no : ∀ t, (∀ x, ¬ Reads t x) → one t = ok none

theorem readCoefs_yes {one : β → Res (Option α)} {Reads : β → R → Prop} (H : ∀ t x, Reads t x → (one t).Sat U fun o => ∃ a, o = some a ∧ rep a x) {ts : List β}
    {xs : List R} (h : List.Forall₂ Reads ts xs) :
    (readCoefs one ts).Sat U fun r => r.2 = true ∧ List.Forall₂ rep r.1 xs := by
  induction h with
  | nil => exact ⟨rfl, .nil⟩
  | cons hx _ ih =>
    unfold readCoefs
    refine (H _ _ hx).bind ?_
    rintro o ⟨a, rfl, ha⟩
    refine ih.bind fun r hr => ?_
    exact ⟨hr.1, .cons ha hr.2⟩

theorem readCoefs_no {one : β → Res (Option α)} {Reads : β → R → Prop} (H : OneSpec U rep one Reads) {ts : List β}
    (h : ∃ t ∈ ts, ∀ x, ¬ Reads t x) : (readCoefs one ts).Sat U fun r => r.2 = false ∧ r.1.length < ts.length := by
  induction ts with
  | nil => simp at h
  | cons t ts ih =>
    unfold readCoefs
    by_cases ht : ∃ x, Reads t x
    · obtain ⟨x, hx⟩ := ht
      refine (H.yes _ _ hx).bind ?_
      rintro o ⟨a, rfl, ha⟩
      have : ∃ t ∈ ts, ∀ x, ¬ Reads t x := by
        obtain ⟨s, hs, hn⟩ := h
        rcases List.mem_cons.1 hs with rfl | hs
        · exact absurd hx (hn x)
        · exact ⟨s, hs, hn⟩
      refine (ih this).bind fun r hr => ?_
      exact ⟨hr.1, by simpa using hr.2⟩
    · push Not at ht
      rw [H.no t ht]
      simp

/-- Reading stops at the first coefficient that is not read. -/
theorem readCoefs_stop {one : β → Res (Option α)} {Reads : β → R → Prop}
    (H : ∀ t x, Reads t x → (one t).Ok fun o => ∃ a, o = some a ∧ rep a x) {as bs : List β} {xs : List R} {t : β}
    (h : List.Forall₂ Reads as xs) :
    (one t = ok none → (readCoefs one (as ++ t :: bs)).Ok fun r => r.2 = false) ∧
    (one t = ub → readCoefs one (as ++ t :: bs) = ub) := by
  induction h with
  | nil =>
    rw [List.nil_append, readCoefs]
    exact ⟨fun h => by rw [h]; simp, fun h => by rw [h]; rfl⟩
  | cons hx _ ih =>
    rw [List.cons_append, readCoefs]
    obtain ⟨o, ho, a, rfl, ha⟩ := H _ _ hx
    rw [ho, ok_bind]
    exact ⟨fun h => (ih.1 h).bind fun r hr => by simpa using hr, fun h => by rw [ih.2 h]; rfl⟩

theorem read_stop {one : β → Res (Option α)} {Reads : β → R → Prop}
    (H : ∀ t x, Reads t x → (one t).Ok fun o => ∃ a, o = some a ∧ rep a x) {as bs : List β} {xs : List R} {t : β}
    (h : List.Forall₂ Reads as xs) (O : CoefOps α) (n : ℕ) :
    (one t = ok none → (readCoefs one (as ++ t :: bs) >>= finish O n).Ok fun r => ∃ p, r = .refused p) ∧
    (one t = ub → (readCoefs one (as ++ t :: bs) >>= finish O n) = ub) := by
  refine ⟨fun ht => ((readCoefs_stop H h).1 ht).bind ?_, fun ht => by rw [(readCoefs_stop H h).2 ht]; rfl⟩
  rintro ⟨l, b⟩ rfl
  exact ⟨_, rfl, _, rfl⟩

theorem at_of_forall₂ {l : List α} {xs : List R} (h : List.Forall₂ rep l xs) {i : ℕ} (hi : i < xs.length) :
    At l i fun e => rep e (xs.getD i 0) := by
  have hl := h.length_eq
  refine ⟨l[i]'(by omega), List.getElem?_eq_getElem _, ?_⟩
  rw [List.getD_eq_getElem _ _ hi]
  exact List.forall₂_iff_get.1 h |>.2 i (by omega) hi

theorem finish_yes (H : CoefCmp U O rep ord) {l : List α} {xs : List R} (h : List.Forall₂ rep l xs) (hne : xs ≠ []) {n : ℕ}
    (hn : n = xs.length) : (finish O n (l, true)).Sat U fun r => ∃ p, r = .val p ∧ PRep rep p (horner xs) := by
  subst hn
  have hpos := List.length_pos_of_ne_nil hne
  unfold finish
  rw [if_pos rfl]
  have hc : Holds rep l.reverse (xs.length - 1 + 1) (horner xs) := by
    intro i hi
    rw [coeff_horner]
    exact at_of_forall₂ (List.rel_reverse h) (by simp; omega)
  refine (recompute_cmp H hc (natDegree_horner xs)).bind fun p hp => ?_
  exact ⟨p, rfl, hp⟩

theorem finish_no {l : List α} {n : ℕ} : finish O n (l, false) =
    ok (.refused ⟨n - 1, List.replicate (n - l.length) O.dflt ++ l.reverse⟩) := rfl

/-- The three outcomes of a text whose coefficients are the stretches between separators. -/
theorem read_yes (H : CoefCmp U O rep ord) {one : β → Res (Option α)} {Reads : β → R → Prop}
    (H1 : ∀ t x, Reads t x → (one t).Sat U fun o => ∃ a, o = some a ∧ rep a x) {ts : List β} {xs : List R} (h : List.Forall₂ Reads ts xs) (hne : ts ≠ []) :
    (readCoefs one ts >>= finish O ts.length).Sat U fun r => ∃ p, r = .val p ∧ PRep rep p (horner xs) := by
  refine (readCoefs_yes H1 h).bind ?_
  rintro ⟨l, b⟩ ⟨rfl, hl⟩
  refine finish_yes H hl ?_ h.length_eq
  rintro rfl
  exact hne (List.length_eq_zero_iff.1 h.length_eq)

theorem read_no {one : β → Res (Option α)} {Reads : β → R → Prop} (H1 : OneSpec U rep one Reads) {ts : List β}
    (h : ∃ t ∈ ts, ∀ x, ¬ Reads t x) :
    (readCoefs one ts >>= finish O ts.length).Sat U fun r => ∃ p, r = .refused p := by
  refine (readCoefs_no H1 h).bind ?_
  rintro ⟨l, b⟩ ⟨rfl, _⟩
  exact ⟨_, rfl⟩

theorem fromTokens_nil (O : CoefOps α) (one : List Char → Res (Option α)) : fromTokens O one [] = ok .dangling := rfl

theorem fromTokens_yes (H : CoefCmp U O rep ord) {one : List Char → Res (Option α)} {Reads : List Char → R → Prop}
    (H1 : ∀ t x, Reads t x → (one t).Sat U fun o => ∃ a, o = some a ∧ rep a x) {ts : List (List Char)} {xs : List R} (h : List.Forall₂ Reads ts xs) (hne : ts ≠ []) :
    (fromTokens O one ts).Sat U fun r => ∃ p, r = .val p ∧ PRep rep p (horner xs) := by
  unfold fromTokens
  rw [if_neg hne]
  exact read_yes H H1 h hne

theorem fromTokens_stop {one : List Char → Res (Option α)} {Reads : List Char → R → Prop}
    (H : ∀ t x, Reads t x → (one t).Ok fun o => ∃ a, o = some a ∧ rep a x) {as bs : List (List Char)} {xs : List R}
    {t : List Char} (h : List.Forall₂ Reads as xs) (O : CoefOps α) :
    (one t = ok none → (fromTokens O one (as ++ t :: bs)).Ok fun r => ∃ p, r = .refused p) ∧
    (one t = ub → fromTokens O one (as ++ t :: bs) = ub) := by
  unfold fromTokens
  rw [if_neg (by simp)]
  exact read_stop H h O _

theorem fromTokens_no {one : List Char → Res (Option α)} {Reads : List Char → R → Prop}
    (H1 : OneSpec U rep one Reads) {ts : List (List Char)} (h : ∃ t ∈ ts, ∀ x, ¬ Reads t x) :
    (fromTokens O one ts).Sat U fun r => ∃ p, r = .refused p := by
  unfold fromTokens
  rw [if_neg (by rintro rfl; simp at h)]
  exact read_no H1 h

end

/-! ### Printing -/

theorem down_ok {f : ℕ → Res (List Char)} {g : ℕ → List Char} : ∀ {n : ℕ}, (∀ i, i < n → f i = ok (g i)) →
    down f n = ok ((List.range n).reverse.map g)
  | 0, _ => rfl
  | n + 1, h => by
    rw [down, h n (by omega), ok_bind, down_ok fun i hi => h i (by omega), ok_bind, List.range_succ]
    simp

theorem intercalate_nil (ts : List (List Char)) : List.intercalate [] ts = ts.flatten := by
  induction ts with
  | nil => rfl
  | cons t ts ih =>
    cases ts with
    | nil => simp
    | cons s ts => rw [List.intercalate_cons_cons, ih]; simp

/-- Printed with separators, the texts come back as tokens. -/
theorem tokens_intercalate {sep : Char} {ts : List (List Char)} (hs : ∀ t ∈ ts, sep ∉ t) (hn : ∀ t ∈ ts, t ≠ []) :
    tokens sep (List.intercalate [sep] ts) = ts := by
  unfold tokens
  by_cases h : ts = []
  · subst h; simp [List.intercalate]
  · rw [← List.splitOn_eq_splitOnP, List.splitOn_intercalate sep hs h, List.filter_eq_self]
    intro t ht
    simpa using hn t ht

theorem tokens_single {sep : Char} {t : List Char} (hs : sep ∉ t) (hn : t ≠ []) : tokens sep t = [t] := by
  have := tokens_intercalate (sep := sep) (ts := [t]) (by simpa using hs) (by simpa using hn)
  simpa using this

/-- The tokens of a text of characters are those of `tokenize` on its bytes. -/
theorem tokens_map (q : Byte → Char) (hq : Function.Injective q) (sep : Byte) (bs : List Byte) :
    tokens (q sep) (bs.map q) = (Spffl.toks (· == sep) bs).map (·.map q) := by
  have key : ∀ bs : List Byte, (bs.map q).splitOnP (· == q sep) = (bs.splitOnP (· == sep)).map (·.map q) := by
    intro bs
    induction bs with
    | nil => rfl
    | cons b bs ih =>
      rw [List.map_cons, List.splitOnP_cons, List.splitOnP_cons, ih]
      by_cases h : b = sep
      · subst h; simp
      · have : q b ≠ q sep := fun e => h (hq e)
        obtain ⟨hd, tl, e⟩ := List.exists_cons_of_ne_nil (List.splitOnP_ne_nil (· == sep) bs)
        rw [e]
        simp [h, this]
  unfold tokens Spffl.toks
  rw [key, List.filter_map]
  congr 1
  apply List.filter_congr
  intro t _
  simp

/-! ### Streams -/

section
variable {U : Prop} {α R : Type} [CommRing R] {O : CoefOps α} {rep : α → R → Prop} {ord : R → R → Prop}

/-- The array holds `f`, whose degree is at most the one recorded. -/
def Loose (rep : α → R → Prop) (p : CPoly α) (f : R[X]) : Prop :=
  Holds rep p.coeffs (p.degree + 1) f ∧ f.natDegree ≤ p.degree

theorem loose_const {c : α} {x : R} (h : rep c x) : Loose rep ⟨0, [c]⟩ (C x) := by
  refine ⟨fun i hi => ?_, by simp⟩
  obtain rfl : i = 0 := by simp at hi; omega
  exact ⟨c, rfl, by simpa using h⟩

theorem promoteAdd_sat (H : CoefCmp U O rep ord) {p : CPoly α} {f : R[X]} (hp : Loose rep p f) {c : α} {x : R}
    (hc : rep c x) : (promoteAdd O p c).Sat U fun r => Loose rep r (f * X + C x) := by
  obtain ⟨h1, h2⟩ := hp
  unfold promoteAdd
  refine (forUp_sat (fun i (s : List α) => s.length = p.degree + 2 ∧ ∀ j, j < i → At s (j + 1) fun e => rep e (f.coeff j))
    (by omega) ⟨by simp [CPoly.new], fun j hj => by omega⟩ fun i s _ hi hs => ?_).bind fun cs hcs => ?_
  · unfold store
    refine (rd_sat (h1 i hi)).bind fun e he => ?_
    refine (wr_sat (by omega)).mono ?_
    rintro r rfl
    refine ⟨by simp [hs.1], fun j hj => ?_⟩
    rcases Nat.lt_or_ge j i with h | h
    · exact (hs.2 j h).congr (by rw [List.getElem?_set_ne (by omega)])
    · obtain rfl : j = i := by omega
      exact at_set_self (by omega) he
  · obtain ⟨hl, ha⟩ := hcs
    refine (rd_sat (ha 0 (by omega))).bind fun c1 hc1 => ?_
    refine (H.sub0 hc1).bind fun z _ => ?_
    rw [wr_ok (by omega), ok_bind, wr_ok (by simp; omega), ok_bind, Sat_ok]
    refine ⟨fun i hi => ?_, ?_⟩
    · cases i with
      | zero => exact at_set_self (by simp; omega) (by simpa using hc)
      | succ i =>
        refine At.congr (cs := cs) ?_ (by rw [List.getElem?_set_ne (by omega), List.getElem?_set_ne (by omega)])
        have e : (f * X + C x).coeff (i + 1) = f.coeff i := by simp
        rw [e]
        exact ha i (by simp at hi; omega)
    · rw [natDegree_le_iff_coeff_eq_zero]
      intro j hj
      obtain ⟨j, rfl⟩ : ∃ k, j = k + 1 := ⟨j - 1, by omega⟩
      simp only [coeff_add, coeff_mul_X, coeff_C_succ, add_zero]
      exact coeff_eq_zero_of_natDegree_lt (by simp at hj; omega)

theorem colonLoop_sat (H : CoefCmp U O rep ord) {one : List Char → Res (Option α × IStream)} {Stop : List Char → Prop}
    (hcolon : ∀ t, Stop (':' :: t)) {Reads : List Char → R → Prop}
    (hone : ∀ t x, Reads t x → ∀ tail, Stop tail → (one (t ++ tail)).Sat U fun r =>
      ∃ a, r = (some a, ⟨tail, tail.isEmpty, false⟩) ∧ rep a x)
    {guard : Bool} {rest : List Char} (hr : Stop rest) (hr' : rest.head? ≠ some ':') {ts : List (List Char)} {xs : List R}
    (hts : List.Forall₂ Reads ts xs) : ∀ (n : ℕ) (p : CPoly α) (f : R[X]), ts.length < n → Loose rep p f →
    (colonLoop O one guard n p ⟨(ts.map (':' :: ·)).flatten ++ rest, ((ts.map (':' :: ·)).flatten ++ rest).isEmpty, false⟩).Sat U
      fun r => PRep rep r.1 (xs.foldl (fun f c => f * X + C c) f) ∧
        r.2 = ⟨rest, rest.isEmpty, !guard && rest.isEmpty⟩ := by
  induction hts with
  | nil =>
    intro n p f hn hp
    obtain ⟨n, rfl⟩ : ∃ k, n = k + 1 := ⟨n - 1, by simp at hn; omega⟩
    simp only [List.map_nil, List.flatten_nil, List.nil_append, List.foldl_nil]
    unfold colonLoop
    have hrec := recompute_cmp H hp.1 hp.2
    cases guard with
    | true =>
      cases rest with
      | nil =>
        simp only [List.isEmpty_nil, Bool.and_self, if_true]
        refine hrec.bind fun q hq => ?_
        exact ⟨hq, rfl⟩
      | cons c r =>
        have hc : c ≠ ':' := by simpa using hr'
        simp only [List.isEmpty_cons, Bool.and_false, Bool.false_eq_true, if_false, IStream.peek, IStream.good, Bool.not_false,
          Bool.and_self, if_true, Option.some.injEq, hc]
        refine hrec.bind fun q hq => ?_
        exact ⟨hq, rfl⟩
    | false =>
      cases rest with
      | nil =>
        simp only [Bool.false_and, Bool.false_eq_true, if_false, IStream.peek, IStream.good, List.isEmpty_nil, Bool.not_true,
          reduceCtorEq]
        refine hrec.bind fun q hq => ?_
        exact ⟨hq, rfl⟩
      | cons c r =>
        have hc : c ≠ ':' := by simpa using hr'
        simp only [List.isEmpty_cons, Bool.false_and, Bool.false_eq_true, if_false, IStream.peek, IStream.good, Bool.not_false,
          Bool.and_self, if_true, Option.some.injEq, hc]
        refine hrec.bind fun q hq => ?_
        exact ⟨hq, rfl⟩
  | @cons t x ts xs ht hts ih =>
    intro n p f hn hp
    obtain ⟨n, rfl⟩ : ∃ k, n = k + 1 := ⟨n - 1, by simp at hn; omega⟩
    unfold colonLoop
    simp only [List.map_cons, List.flatten_cons, List.cons_append, List.isEmpty_cons, Bool.and_false, Bool.false_eq_true,
      if_false, IStream.peek, IStream.good, Bool.not_false, Bool.and_self, if_true, List.tail_cons, List.append_assoc]
    have hstop : Stop ((ts.map (':' :: ·)).flatten ++ rest) := by
      cases ts with
      | nil => simpa using hr
      | cons t ts => exact hcolon _
    refine (hone t x ht _ hstop).bind ?_
    rintro r ⟨a, rfl, ha⟩
    dsimp only
    refine (promoteAdd_sat H hp ha).bind fun q hq => ?_
    exact ih n q _ (by simp at hn; omega) hq

theorem intercalate_cons (t : List Char) (ts : List (List Char)) :
    List.intercalate [':'] (t :: ts) = t ++ (ts.map (':' :: ·)).flatten := by
  induction ts generalizing t with
  | nil => simp
  | cons s ts ih => rw [List.intercalate_cons_cons, ih]; simp

end

end Spffl.PText
