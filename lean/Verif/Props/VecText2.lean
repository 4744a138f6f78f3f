import Verif.Props.VecText
import Verif.Props.CMod

/-!
# C94: the element types

Every element type of the library satisfies what the theorems on vectors and matrices ask for.
-/

namespace Spffl.Props
namespace VText94
open Res Spffl.Scan Spffl.PText Spffl.VText PText93

/-! ### Numbers -/

/-- An optional sign and digits. -/
def IntWord (t : List Char) (n : ℤ) : Prop :=
  ∃ ds : List Char, ds ≠ [] ∧ (∀ c ∈ ds, isDig c = true) ∧
    ((t = ds ∧ n = decVal ds) ∨ (t = '+' :: ds ∧ n = decVal ds) ∨ (t = '-' :: ds ∧ n = -(decVal ds : ℤ)))

theorem IntWord.text {t : List Char} {n : ℤ} (h : IntWord t n) {ws rest : List Char} (hw : ∀ c ∈ ws, isSpace c = true)
    (hr : ∀ c ∈ rest.head?, isDig c = false) : IntText (ws ++ t ++ rest) n rest := by
  obtain ⟨ds, h1, h2, h3⟩ := h
  refine ⟨ws, ds, hw, h1, h2, hr, ?_⟩
  rcases h3 with ⟨rfl, rfl⟩ | ⟨rfl, rfl⟩ | ⟨rfl, rfl⟩ <;> simp

theorem plain_dig {c : Char} (h : isDig c = true) : plain c = true := by
  have hs := dig_not_space h
  have : c ≠ '#' ∧ c ≠ '[' ∧ c ≠ ']' := by
    refine ⟨?_, ?_, ?_⟩ <;> (rintro rfl; revert h; decide)
  simp [plain, hs, this.1, this.2.1, this.2.2]

theorem IntWord.clean {t : List Char} {n : ℤ} (h : IntWord t n) : t ≠ [] ∧ ∀ c ∈ t, plain c = true := by
  obtain ⟨ds, h1, h2, h3⟩ := h
  have hd : ∀ c ∈ ds, plain c = true := fun c hc => plain_dig (h2 c hc)
  rcases h3 with ⟨rfl, rfl⟩ | ⟨rfl, rfl⟩ | ⟨rfl, rfl⟩
  · exact ⟨h1, hd⟩
  · refine ⟨by simp, fun c hc => ?_⟩
    rcases List.mem_cons.1 hc with rfl | hc
    · rfl
    · exact hd c hc
  · refine ⟨by simp, fun c hc => ?_⟩
    rcases List.mem_cons.1 hc with rfl | hc
    · rfl
    · exact hd c hc

theorem showInt_word (n : ℤ) : IntWord (showInt n) n := by
  obtain ⟨h1, h2, h3, _⟩ := showNat_spec n.natAbs
  refine ⟨showNat n.natAbs, h3, h2, ?_⟩
  unfold showInt
  split
  · exact .inr (.inr ⟨rfl, by rw [h1]; omega⟩)
  · exact .inl ⟨rfl, by rw [h1]; omega⟩

theorem blank_dig {rest : List Char} (h : ∀ c ∈ rest.head?, blank c = true) : ∀ c ∈ rest.head?, isDig c = false := by
  intro c hc
  have := h c hc
  simp only [blank, Bool.or_eq_true, decide_eq_true_eq] at this
  rcases this with (rfl | rfl) | rfl <;> decide

theorem blanks_space {ws : List Char} (h : ∀ c ∈ ws, blank c = true) : ws.dropWhile isSpace = [] :=
  List.dropWhile_eq_nil_iff.2 fun c hc => blank_space (h c hc)

theorem not_blank {c : Char} (h : plain c = true) : blank c = false := by
  by_contra hb
  have hb : blank c = true := by simpa using hb
  simp only [plain, Bool.and_eq_true] at h
  have := blank_space hb
  simp [this] at h

/-- C94: the element type `int`. -/
theorem C94_int : EltSpec False intIO (fun a x => a = x ∧ InInt a) (fun t n => IntWord t n ∧ InInt n) where
  sub := by
    rintro z ⟨rfl, hz⟩
    show (chk (0 - 0)).Sat False _
    rw [chk_ok (by simpa using hz)]
    exact ⟨by simp, by simpa using hz⟩
  read := by
    rintro z - ws t x rest hw ⟨ht, hx⟩ hr
    show Sat False (ok _) _
    rw [(extractInt_text (v0 := z) (ht.text (fun c hc => blank_space (hw c hc)) (blank_dig hr))).1 hx]
    exact ⟨⟨rfl, hx⟩, rfl⟩
  print := by
    rintro a x ⟨rfl, ha⟩
    exact ⟨_, rfl, showInt_word a, ha⟩
  clean h := h.1.clean
  blanks := by
    rintro z - ws hw
    show Sat False (ok _) _
    rw [extractInt_congr (cs' := []) (blanks_space hw)]
    exact rfl

theorem C94_int_zero {a : ℤ} : (intIO.sub a a).Ok fun z => z = 0 ∧ InInt z := by
  show (chk _).Ok _
  rw [chk_ok (by unfold InInt; simp)]
  exact ⟨_, rfl, by simp, by unfold InInt; simp⟩

/-- C94: the element type `intmod_t`.  Negative numbers are not among the texts: see C91. -/
theorem C94_mod {p : ℕ} (hp : 0 < p) (hp' : p ≤ 1073741824) :
    EltSpec False modIO (IntMod.Rep p) (fun t x => ∃ n : ℤ, IntWord t n ∧ InInt n ∧ 0 ≤ n ∧ x = (n : ZMod p)) where
  sub := fun hz => by
    have := (IntMod.sub_ok hp' hz hz).sat (U := False)
    rwa [sub_zero] at this
  read := by
    rintro z hz ws t x rest hw ⟨n, ht, hn, hn0, rfl⟩ hr
    show (extractMod _ _).Sat _ _
    have hz1 := hz.1
    obtain ⟨c, t', hct⟩ := List.exists_cons_of_ne_nil ht.clean.1
    have hd : (ws ++ t ++ rest).dropWhile blank = c :: (t' ++ rest) := by
      rw [List.append_assoc, List.dropWhile_append_of_pos hw, hct, List.cons_append,
        List.dropWhile_cons_of_neg (by simp [not_blank (ht.clean.2 c (by simp [hct]))])]
    unfold extractMod
    rw [hd]
    dsimp only
    have hc : IntMod.check_modulus z = ok () := by
      unfold IntMod.check_modulus
      rw [if_neg]; rw [hz1]; omega
    have he := (extractInt_text (v0 := z.residue) (ht.text (ws := []) (by simp) (blank_dig hr))).1 hn
    rw [List.nil_append, hct, List.cons_append] at he
    rw [hc, ok_bind, he]
    dsimp only
    have hm : imod n z.modulus = ok (n % (p : ℤ)) := by
      rw [hz1]
      unfold imod
      rw [if_neg (by omega), if_pos, Int.tmod_eq_emod_of_nonneg hn0]
      have h1 := Int.natAbs_tdiv_le_natAbs n p
      have := Int.tdiv_nonneg hn0 (Int.natCast_nonneg p)
      unfold InInt at *
      omega
    rw [hm, ok_bind, hz1]
    exact ⟨rep_emod hp n, rfl⟩
  print := by
    intro a x ha
    refine ⟨showInt a.residue, ?_, a.residue, showInt_word _, ?_, ha.2.1, ha.2.2.2.symm⟩
    · show showMod a = _
      unfold showMod IntMod.check_modulus
      rw [if_neg (by rw [ha.1]; omega)]; rfl
    · have := ha.2.1
      have := ha.2.2.1
      unfold InInt; omega
  clean := fun ⟨_, h, _⟩ => h.clean
  blanks := by
    rintro z - ws hw
    show (extractMod _ _).Sat _ _
    unfold extractMod
    rw [List.dropWhile_eq_nil_iff.2 hw]
    exact rfl

theorem C94_mod_zero {p : ℕ} (hp' : p ≤ 1073741824) {a : IntMod} {x : ZMod p} (ha : IntMod.Rep p a x) :
    (modIO.sub a a).Ok fun z => IntMod.Rep p z 0 := by
  have := IntMod.sub_ok hp' ha ha
  rwa [sub_self] at this

/-- An integer, or a fraction of two. -/
def RatWord (t : List Char) (x : ℚ) : Prop :=
  ∃ n d : ℤ, InInt n ∧ InInt d ∧ n ≠ INT_MIN ∧ d ≠ INT_MIN ∧ d ≠ 0 ∧ x = (n : ℚ) / d ∧
    ((IntWord t n ∧ d = 1) ∨ ∃ u v, t = u ++ '/' :: v ∧ IntWord u n ∧ IntWord v d)

theorem rat_zero {z : IntRat} (h : IntRat.Rep z 0) : z = ⟨0, 1⟩ :=
  h.inj ⟨by simp, by unfold InInt; simp, by unfold InInt; simp, by decide, by simp, by simp⟩

/-- C94: the element type `intrat_t`. -/
theorem C94_rat : EltSpec False ratIO IntRat.Rep RatWord where
  sub := fun hz => by
    rw [rat_zero hz]
    have : ratIO.sub ⟨0, 1⟩ ⟨0, 1⟩ = ok ⟨0, 1⟩ := by decide +kernel
    rw [this]
    rw [← rat_zero hz]
    exact hz
  read := by
    rintro z hz ws t x rest hw ⟨n, d, hn, hd, hn', hd', hd0, rfl, h⟩ hr
    show (extractRat _ _).Sat _ _
    rw [rat_zero hz, extractRat_eq]
    have hne : ∀ c ∈ rest.head?, c ≠ '/' := by
      intro c hc he
      have := hr c hc
      rw [he] at this
      revert this; decide
    have hden : ratDenom 1 (extractInt 0 (.ofChars (ws ++ t ++ rest))).2 = (d, ⟨rest, rest.isEmpty, false⟩) ∧
        (extractInt 0 (.ofChars (ws ++ t ++ rest))).1 = n := by
      rcases h with ⟨ht, rfl⟩ | ⟨u, v, rfl, hu, hv⟩
      · rw [(extractInt_text (v0 := 0) (ht.text (fun c hc => blank_space (hw c hc)) (blank_dig hr))).1 hn]
        refine ⟨?_, rfl⟩
        cases rest with
        | nil => rfl
        | cons c r =>
          have hc : c ≠ '/' := hne c (by simp)
          simp [ratDenom, IStream.peek, IStream.good, hc]
      · have hu' := hu.text (ws := ws) (rest := '/' :: (v ++ rest)) (fun c hc => blank_space (hw c hc)) (by
          intro c hc; simp at hc; subst hc; decide)
        have e : ws ++ (u ++ '/' :: v) ++ rest = ws ++ u ++ '/' :: (v ++ rest) := by simp
        rw [e, (extractInt_text (v0 := 0) hu').1 hn]
        refine ⟨?_, rfl⟩
        have hv' := (extractInt_text (v0 := 1) (hv.text (ws := []) (rest := rest) (by simp) (blank_dig hr))).1 hd
        simpa [ratDenom, IStream.peek, IStream.good, IStream.ofChars] using hv'
    rw [hden.1, hden.2]
    exact ((IntRat.simplify_ok hn hd hn' hd' hd0).bind fun q hq => ⟨_, rfl, hq, rfl⟩).sat
  print := by
    intro a x ha
    refine ⟨_, rfl, a.numer, a.denom, ha.inN, ha.inD, ha.ne, by have := ha.pos; unfold INT_MIN; omega, ha.pos.ne', ha.val.symm, ?_⟩
    unfold showRat
    by_cases h : a.denom = 1
    · exact Or.inl ⟨by simp [h, showInt_word], h⟩
    · exact Or.inr ⟨_, _, by rw [if_pos h], showInt_word _, showInt_word _⟩
  clean := by
    rintro t x ⟨n, d, -, -, -, -, -, -, ⟨h, -⟩ | ⟨u, v, rfl, hu, hv⟩⟩
    · exact h.clean
    · refine ⟨by simp, fun c hc => ?_⟩
      simp only [List.mem_append, List.mem_cons] at hc
      rcases hc with hc | rfl | hc
      · exact hu.clean.2 c hc
      · rfl
      · exact hv.clean.2 c hc
  blanks := by
    rintro z hz ws hw
    show (extractRat _ _).Sat _ _
    rw [rat_zero hz, extractRat_eq, extractInt_congr (cs' := []) (blanks_space hw)]
    exact rfl

/-- C94: an object without a fraction part, or a small one, has a difference with itself. -/
theorem C94_rat_zero {a : IntRat} {x : ℚ} (ha : IntRat.Rep a x) : (ratIO.sub a a).Sat True fun z => IntRat.Rep z 0 := by
  have := IntRat.sub_sat ha ha
  rwa [sub_self] at this

/-- C94, violated: a rational that does not start with a number is not refused, and nothing of it is consumed: a vector of
rationals is read forever, growing by a zero in every round. -/
theorem C94_violated_rat_forever {e : IntRat} (he : ratIO.sub e e = ok ⟨0, 1⟩) {v : List IntRat} {cs ws r : List Char} {c : Char}
    (hws : ∀ d ∈ ws, blank d = true) (hc : isSpace c = false) (hc' : isDig c = false) (hs : c ≠ '+' ∧ c ≠ '-')
    (h : cs = [] ∨ (∃ xs, VecText RatWord cs xs) ∧ ws ≠ []) (n : ℕ) :
    readVec ratIO n (e :: v) (cs ++ (ws ++ c :: r)) = timeout := by
  have step : ∀ ws : List Char, (∀ d ∈ ws, blank d = true) → extractRat ⟨0, 1⟩ (ws ++ c :: r) = ok (⟨0, 1⟩, ⟨c :: r, false, false⟩) := by
    intro ws hws
    have hd : (ws ++ c :: r).dropWhile isSpace = c :: r := by
      rw [List.dropWhile_append_of_pos fun d hd => blank_space (hws d hd), List.dropWhile_cons_of_neg (by simp [hc])]
    have hx : extractInt 0 (.ofChars (ws ++ c :: r)) = (0, ⟨c :: r, false, true⟩) := by
      rw [extractInt_good hd (by simp)]
      simp [getInt, takeSign, hs.1, hs.2, takeDigits, hc', clampInt]
    rw [extractRat_eq, hx]
    have : ratDenom 1 ⟨c :: r, false, true⟩ = (1, ⟨c :: r, false, false⟩) := by
      simp [ratDenom, IStream.peek, IStream.good]
    simp only [this]
    have hsim : IntRat.simplify ⟨0, 1⟩ = ok ⟨0, 1⟩ := by decide +kernel
    rw [hsim, ok_bind]
  have loop : ∀ n v ws, (∀ d ∈ ws, blank d = true) → vecLoop ratIO ⟨0, 1⟩ n v (.ofChars (ws ++ c :: r)) = timeout := by
    intro n
    induction n with
    | zero => intro v ws _; rfl
    | succ n ih =>
      intro v ws hws
      unfold vecLoop
      have : ratIO.read ⟨0, 1⟩ (ws ++ c :: r) = ok (⟨0, 1⟩, ⟨c :: r, false, false⟩) := step ws hws
      simp only [IStream.ofChars, Bool.false_eq_true, if_false, this, ok_bind]
      exact ih (v ++ [⟨0, 1⟩]) [] (by simp)
  unfold readVec
  dsimp only
  rw [he, ok_bind]
  rcases h with rfl | ⟨⟨xs, hxs⟩, hne⟩
  · exact loop n [] ws hws
  · refine vecLoop_forever C94_rat ⟨by simp, by unfold InInt; simp, by unfold InInt; simp, by decide, by simp, by simp⟩ ?_ (by simp)
      (fun n v => loop n v ws hws) hxs n []
    intro d hd
    rw [List.head?_append_of_ne_nil _ hne] at hd
    exact hws d (List.mem_of_mem_head? hd)

example : readVec ratIO 100 [⟨0, 1⟩] "1/2 x".toList = timeout := by decide +kernel

/-! ### Polynomials over F_2 and residues -/

open F2P Polynomial

theorem hex_plain {c : Char} (h : (hexVal c).isSome = true) : plain c = true := by
  by_contra hp
  have hp : plain c = false := by simpa using hp
  simp only [plain, Bool.and_eq_false_iff, Bool.not_eq_false', decide_eq_false_iff_not, ne_eq, not_not] at hp
  rcases hp with ((hp | rfl) | rfl) | rfl
  · simp only [isSpace, Bool.or_eq_true, decide_eq_true_eq] at hp
    rcases hp with ((((rfl | rfl) | rfl) | rfl) | rfl) | rfl <;> (revert h; decide)
  · revert h; decide
  · revert h; decide
  · revert h; decide

theorem blank_hex {rest : List Char} (h : ∀ c ∈ rest.head?, blank c = true) : ∀ c ∈ rest.head?, hexVal c = none := by
  intro c hc
  have := h c hc
  simp only [blank, Bool.or_eq_true, decide_eq_true_eq] at this
  rcases this with (rfl | rfl) | rfl <;> decide

/-- Hexadecimal digits with the value of the polynomial. -/
def HexWord (t : List Char) (f : (ZMod 2)[X]) : Prop := t ≠ [] ∧ (∀ c ∈ t, (hexVal c).isSome = true) ∧ nval f = hexNum t 0

/-- C94: the element type `f2_poly_t`. -/
theorem C94_f2 : EltSpec False f2IO (fun a f => Canon a ∧ toPoly a = f) HexWord where
  sub := by
    rintro z ⟨hz, hz0⟩
    refine ((F2P.sub_ok hz.ne_nil).mono fun r hr => ⟨hr.2, ?_⟩).sat
    rw [hr.1, sub_self]
  read := by
    rintro z - ws t x rest hw ⟨h1, h2, h3⟩ hr
    obtain ⟨⟨r, f, s⟩, h, h4, h5, h6, h7⟩ := F2P.read_ok hw h1 h2 (rest := rest) (fun c hc => blank_hex hr c hc)
    dsimp only at h4 h5 h6 h7
    subst h6 h7
    show Sat False (F2P.read _ >>= fun r => ok (r.1, _)) _
    rw [h, ok_bind]
    exact ⟨⟨h5, nval_inj (h4.trans h3.symm)⟩, rfl⟩
  print := by
    rintro a x ⟨ha, rfl⟩
    exact ⟨_, print_ok ha.ne_nil, hexOf_ne_nil _, allHex_hexOf _, (hexNum_hexOf _).symm⟩
  clean h := ⟨h.1, fun c hc => hex_plain (h.2.1 c hc)⟩
  blanks := by
    rintro z - ws hw
    obtain ⟨r, h1, h2⟩ := F2P.read_fail (rest := []) hw (by simp)
    rw [List.append_nil] at h1
    show Sat False (F2P.read _ >>= fun r => ok (r.1, _)) _
    rw [h1, ok_bind]
    exact h2

theorem C94_f2_zero {a : F2P} (ha : Canon a) : (f2IO.sub a a).Ok fun z => Canon z ∧ toPoly z = 0 :=
  (F2P.sub_ok ha.ne_nil).mono fun r hr => ⟨hr.2, by rw [hr.1, sub_self]⟩

/-- Hexadecimal digits of a representative. -/
def HexRep (m : (ZMod 2)[X]) (t : List Char) (x : AdjoinRoot m) : Prop := ∃ q, HexWord t q ∧ x = AdjoinRoot.mk m q

theorem HexRep.word {m : (ZMod 2)[X]} {t : List Char} {x : AdjoinRoot m} (h : HexRep m t x) {ws : List Char}
    (hw : ∀ c ∈ ws, blank c = true) : F2Word m (ws ++ t) x := by
  obtain ⟨q, ⟨h1, h2, h3⟩, rfl⟩ := h
  exact ⟨ws, t, q, rfl, hw, h1, h2, h3, rfl⟩

/-- C94: the element type `f2_polymod_t`. -/
theorem C94_f2mod {m : (ZMod 2)[X]} (hm : 0 < m.natDegree) : EltSpec False f2ModIO (F2Mod.Rep m) (HexRep m) where
  sub := fun hz => by
    have := (F2Mod.sub_ok hz hz).sat (U := False)
    rwa [sub_zero] at this
  read := by
    rintro z hz ws t x rest hw ht hr
    exact (C93_f2mod_stream hz (ht.word hw) (blank_hex hr)).sat
  print := by
    rintro a x ha
    obtain ⟨t, h1, h2, h3, h4, _⟩ := C93_f2mod_round_trip hm ha
    refine ⟨t, h1, _, ⟨?_, h3, h4.symm⟩, ha.val.symm⟩
    rintro rfl
    simp at h2
    omega
  clean := fun ⟨_, h, _⟩ => ⟨h.1, fun c hc => hex_plain (h.2.1 c hc)⟩
  blanks := by
    rintro z hz ws hw
    obtain ⟨r, h1, h2⟩ := F2P.read_fail (rest := []) hw (by simp)
    rw [List.append_nil] at h1
    show (f2ModExtract _ _).Sat False _
    unfold f2ModExtract
    have hg : Good r.1 := by
      have : F2P.read ws = ok (F2P.zero, true, []) := by
        unfold F2P.read
        rw [show ws.dropWhile isBlank = [] from List.dropWhile_eq_nil_iff.2 hw]
      rw [this] at h1
      cases h1
      exact canon_zero.good
    obtain ⟨a, ha, _⟩ := F2Mod.mk'_ok hg hz.cm hz.hm hz.m_ne
    rw [h1, ok_bind, ha, ok_bind]
    exact h2

theorem C94_f2mod_zero {m : (ZMod 2)[X]} {a : F2Mod} {x : AdjoinRoot m} (ha : F2Mod.Rep m a x) :
    (f2ModIO.sub a a).Ok fun z => F2Mod.Rep m z 0 := by
  have := F2Mod.sub_ok ha ha
  rwa [sub_self] at this

/-! ### Polynomials over F_p, F_2^n and F_p^n, and residues -/

open CPoly

theorem fp_plain {c : Char} (h : fpChar c = true) : plain c = true := by
  unfold fpChar at h
  simp only [Bool.or_eq_true, decide_eq_true_eq] at h
  rcases h with h | rfl
  · exact plain_dig h
  · rfl

theorem blank_fp {rest : List Char} (h : ∀ c ∈ rest.head?, blank c = true) : ∀ c ∈ rest.head?, fpChar c = false := by
  intro c hc
  have := h c hc
  simp only [blank, Bool.or_eq_true, decide_eq_true_eq] at this
  rcases this with (rfl | rfl) | rfl <;> decide

theorem blank_colon {rest : List Char} (h : ∀ c ∈ rest.head?, blank c = true) : rest.head? ≠ some ':' := by
  intro hc
  have := h ':' hc
  revert this; decide

theorem colons_plain {α : Type} {P : List Char → α → Prop} (hP : ∀ t x, P t x → t ≠ [] ∧ ∀ c ∈ t, plain c = true)
    {ts : List (List Char)} {xs : List α} (h : List.Forall₂ P ts xs) (hne : ts ≠ []) :
    List.intercalate [':'] ts ≠ [] ∧ ∀ c ∈ List.intercalate [':'] ts, plain c = true := by
  induction h with
  | nil => exact absurd rfl hne
  | @cons t x ts xs ht _ ih =>
    obtain ⟨h1, h2⟩ := hP t x ht
    rw [intercalate_cons]
    refine ⟨by simp [h1], fun c hc => ?_⟩
    rcases List.mem_append.1 hc with hc | hc
    · exact h2 c hc
    · cases ts with
      | nil => simp at hc
      | cons s ts =>
        have := (ih (by simp)).2
        rw [intercalate_cons] at this
        simp only [List.map_cons, List.flatten_cons, List.cons_append, List.mem_cons] at hc
        rcases hc with rfl | hc
        · rfl
        · exact this c hc

section Fp
variable {p : ℕ} [hp : Fact p.Prime] {M : (ZMod p)[X]}

/-- C94: the element type `fp_poly_t`. -/
theorem C94_fp (hb : p ≤ 46341) : EltSpec False fpIO (PRep (IntMod.Rep p)) (FpText p) where
  sub := fun hz => by
    have := CPoly.sub_sat (IntMod.cops_ref hp.out.two_le hb) hz hz
    rwa [sub_zero] at this
  read := by
    rintro z hz ws t x rest hw ht hr
    obtain ⟨_, h1, r, rfl, h2⟩ := denotes_ok hp.out.pos (by omega) ht.2.2
    obtain ⟨c0, hc0, hc0'⟩ := hz.c0
    have := C93_fp_stream hc0 hw ht.1 (fpText_char ht) (blank_fp hr) (r := .val r) (by rw [hc0'.1]; exact h1)
    show Sat False (fpExtract _ _ >>= _) _
    rw [this, ok_bind]
    exact ⟨h2, rfl⟩
  print := by
    intro a f ha
    exact ⟨_, C93_fp_print hp.out.pos ha, fp_text hp.out.pos (by omega) f (Nat.lt_succ_self _) rfl⟩
  clean h := ⟨h.1, fun c hc => fp_plain (fpText_char h c hc)⟩
  blanks := by
    rintro z hz ws hw
    obtain ⟨c0, hc0, _⟩ := hz.c0
    have := C93_fp_stream_refused (a := z) (rest := []) (by intro h; rw [h] at hc0; simp at hc0) hw (by simp)
    rw [List.append_nil] at this
    show Sat False (fpExtract _ _ >>= _) _
    rw [this]
    exact rfl

/-- C94: an element of which some coefficient is not an `int` is reported, so the vector ends before it. -/
theorem C94_fp_refused (hb : p ≤ 1073741824) {z : CPoly IntMod} {g : (ZMod p)[X]} (hz : PRep (IntMod.Rep p) z g)
    {ws t rest : List Char} (hw : ∀ c ∈ ws, blank c = true) (ht : t ≠ []) (hc : ∀ c ∈ t, fpChar c = true)
    (hr : ∀ c ∈ rest.head?, blank c = true) (h : ',' ∈ t ∨ 10 ≤ p)
    (hbad : ∃ u ∈ t.splitOnP (· == ','), u ≠ [] ∧ ∀ n tail, IntText u n tail → ¬ InInt n) :
    (fpIO.read z (ws ++ t ++ rest)).Ok fun r => r.2 = ⟨rest, rest.isEmpty, true⟩ := by
  obtain ⟨u, hu, hu0, hu1⟩ := hbad
  obtain ⟨r, h1, b, rfl⟩ := (C93_fp_list hp.out.pos hb h rfl).2 ⟨u, by simpa [hu0] using hu, hu1⟩
  obtain ⟨c0, hc0, hc0'⟩ := hz.c0
  have := C93_fp_stream hc0 hw ht hc (blank_fp hr) (r := .refused b) (by rw [hc0'.1]; exact h1)
  show Ok (fpExtract _ _ >>= _) _
  rw [this, ok_bind]
  exact ⟨_, rfl, rfl⟩

example : fpIO.read ⟨0, [⟨0, 13⟩]⟩ "1,99999999999 3".toList = ok (⟨1, [⟨-1, 0⟩, ⟨1, 13⟩]⟩, ⟨" 3".toList, false, true⟩) := by
  decide +kernel

theorem C94_fp_zero (hb : p ≤ 46341) {a : CPoly IntMod} {f : (ZMod p)[X]} (ha : PRep (IntMod.Rep p) a f) :
    (fpIO.sub a a).Ok fun z => PRep (IntMod.Rep p) z 0 := by
  have := CPoly.sub_sat (IntMod.cops_ref hp.out.two_le hb) ha ha
  rw [sub_self] at this
  exact sat_false.1 this

/-- The text of a polynomial that represents `x`. -/
def FpRep (M : (ZMod p)[X]) (t : List Char) (x : AdjoinRoot M) : Prop := ∃ f, FpText p t f ∧ x = AdjoinRoot.mk M f

theorem FpRep.word {t : List Char} {x : AdjoinRoot M} (h : FpRep M t x) {ws : List Char} (hw : ∀ c ∈ ws, blank c = true) :
    FpnWord M (ws ++ t) x := by
  obtain ⟨f, h1, rfl⟩ := h
  exact ⟨ws, t, f, rfl, hw, h1, rfl⟩

theorem FpRep.clean {t : List Char} {x : AdjoinRoot M} (h : FpRep M t x) : t ≠ [] ∧ ∀ c ∈ t, plain c = true := by
  obtain ⟨f, h1, -⟩ := h
  exact ⟨h1.1, fun c hc => fp_plain (fpText_char h1 c hc)⟩

/-- C94: the element type `fp_polymod_t`. -/
theorem C94_fpmod (hb : p ≤ 46341) : EltSpec False fpModIO (CMod.Rep (IntMod.Rep p) M) (FpRep M) where
  sub := fun hz => by
    have := CMod.sub_sat (IntMod.cops_ref hp.out.two_le hb) hz hz
    rwa [sub_zero] at this
  read := by
    rintro z hz ws t x rest hw ⟨f, ht, rfl⟩ hr
    obtain ⟨_, h1, r, rfl, h2⟩ := denotes_ok hp.out.pos (by omega) ht.2.2
    obtain ⟨g, hg, _⟩ := hz.hr
    obtain ⟨c0, hc0, hc0'⟩ := hg.c0
    have := C93_fp_stream hc0 hw ht.1 (fpText_char ht) (blank_fp hr) (r := .val r) (by rw [hc0'.1]; exact h1)
    show (fpModExtract _ _).Sat False _
    unfold fpModExtract
    rw [this, ok_bind]
    exact ((fpm_mk hb hz.m_ne r f h2 _ hz.hm).bind fun c hc => ⟨_, rfl, hc, rfl⟩).sat
  print := by
    intro a x ha
    obtain ⟨f, t, h1, h2, h3, h4, _⟩ := C93_fpmod_round_trip hb ha
    refine ⟨t, h4, f, fp_text hp.out.pos (by omega) f ?_ h3, h2.symm⟩
    by_cases h : f = 0
    · rw [h, natDegree_zero]; omega
    · have := natDegree_lt_natDegree h h1; omega
  clean h := h.clean
  blanks := by
    rintro z hz ws hw
    obtain ⟨g, hg, _⟩ := hz.hr
    obtain ⟨c0, hc0, _⟩ := hg.c0
    have := C93_fp_stream_refused (a := z.residue) (rest := []) (by intro h; rw [h] at hc0; simp at hc0) hw (by simp)
    rw [List.append_nil] at this
    show (fpModExtract _ _).Sat False _
    unfold fpModExtract
    rw [this, ok_bind]
    dsimp only
    exact (fpm_mk hb hz.m_ne _ g hg _ hz.hm).sat.bind fun c _ => rfl

theorem C94_fpmod_zero (hb : p ≤ 46341) {a : CMod IntMod} {x : AdjoinRoot M} (ha : CMod.Rep (IntMod.Rep p) M a x) :
    (fpModIO.sub a a).Ok fun z => CMod.Rep (IntMod.Rep p) M z 0 := by
  have := CMod.sub_sat (IntMod.cops_ref hp.out.two_le hb) ha ha
  rw [sub_self] at this
  exact sat_false.1 this

/-- Texts of coefficients, the highest first, separated by colons. -/
def Colons {K : Type} [CommRing K] (P : List Char → K → Prop) (t : List Char) (f : K[X]) : Prop :=
  ∃ ts xs, ts ≠ [] ∧ t = List.intercalate [':'] ts ∧ List.Forall₂ P ts xs ∧ f = horner xs

theorem prep_zero {α K : Type} [CommRing K] {rep : α → K → Prop} {c : α} (h : rep c 0) : PRep rep ⟨0, [c]⟩ 0 := by
  refine ⟨by simp, fun i hi => ?_⟩
  obtain rfl : i = 0 := by simp at hi; exact hi
  exact ⟨c, rfl, by simpa using h⟩

theorem fpn_blanks (hM : M ≠ 0) {z : CPoly (CMod IntMod)} {g : (AdjoinRoot M)[X]} (hb : p ≤ 46341)
    (hz : PRep (CMod.Rep (IntMod.Rep p) M) z g)
    {ws : List Char} (hw : ∀ c ∈ ws, blank c = true) : (fpnExtract z ws).Ok fun r =>
      PRep (CMod.Rep (IntMod.Rep p) M) r.1 0 ∧ r.2.fail = true := by
  obtain ⟨c0, hc0, hc0'⟩ := hz.c0
  obtain ⟨d0, hd0, _⟩ := hc0'.hm.c0
  have := C93_fp_stream_refused (a := c0.modulus) (rest := []) (by intro h; rw [h] at hd0; simp at hd0) hw (by simp)
  rw [List.append_nil] at this
  have hrd : rd z.coeffs 0 = ok c0 := by unfold rd; rw [hc0]
  obtain ⟨s, hs1, hs2⟩ := sat_false.1 ((Cyclo.fpn_cmp hb hM).psub0 hc0')
  unfold fpnExtract fpnGet
  rw [hrd, ok_bind, hs1, ok_bind, this, ok_bind]
  exact ⟨_, rfl, prep_zero hs2, rfl⟩

/-- C94: the element type `fpn_poly_t`. -/
theorem C94_fpn (hb : p ≤ 46341) (hM : M ≠ 0) :
    EltSpec False fpnIO (PRep (CMod.Rep (IntMod.Rep p) M)) (Colons (FpRep M)) where
  sub := fun hz => by
    have := ((CM.C36_fpn hb hM hz hz).2.2.2.2 le_rfl).sat (U := False)
    rwa [sub_zero] at this
  read := by
    rintro z hz ws t f rest hw ⟨ts, xs, hne, rfl, hts, rfl⟩ hr
    cases hts with
    | nil => exact absurd rfl hne
    | @cons t x ts xs ht hts =>
      have := C93_fpn_stream hb hM hz (ts := (ws ++ t) :: ts) (xs := x :: xs) (by simp)
        (.cons (ht.word hw) (hts.imp fun u y hu => hu.word (ws := []) (by simp))) (blank_fp hr) (blank_colon hr)
      rw [intercalate_cons] at this ⊢
      rw [← List.append_assoc]
      exact this.sat
  print := by
    intro a f ha
    obtain ⟨q, hq, hs⟩ := C93_fpn_print ha
    refine ⟨_, hs, _, (List.range (f.natDegree + 1)).reverse.map f.coeff, by simp, rfl,
      forall₂_range fun i hi => ⟨q i, fpOut_text (by omega) _, (hq i hi).2.symm⟩, (horner_coeffs f (by omega)).symm⟩
  clean := fun ⟨ts, xs, h1, h2, h3, _⟩ => by rw [h2]; exact colons_plain (fun t x h => h.clean) h3 h1
  blanks := by
    rintro z hz ws hw
    exact ((fpn_blanks hM hb hz hw).mono fun _ h => h.2).sat

theorem C94_fpn_zero (hb : p ≤ 46341) (hM : M ≠ 0) {a : CPoly (CMod IntMod)} {f : (AdjoinRoot M)[X]}
    (ha : PRep (CMod.Rep (IntMod.Rep p) M) a f) : (fpnIO.sub a a).Ok fun z => PRep (CMod.Rep (IntMod.Rep p) M) z 0 := by
  have := (CM.C36_fpn hb hM ha ha).2.2.2.2 le_rfl
  rwa [sub_self] at this

variable [hM : Fact (Irreducible M)] {N : (AdjoinRoot M)[X]}

theorem fpnmod_sub (hb : p ≤ 46341) {a : CMod (CMod IntMod)} {x : AdjoinRoot N} (ha : CMod.Rep (CMod.Rep (IntMod.Rep p) M) N a x) :
    (fpnModIO.sub a a).Ok fun z => CMod.Rep (CMod.Rep (IntMod.Rep p) M) N z 0 := by
  have e := CMod.sub_sat (FpMod.copsNeg_ref hb hM.out.ne_zero) ha ha
  unfold FpMod.copsNeg at e
  rw [CMod.sub_swap _ _ _ _ le_rfl, sub_self] at e
  exact sat_false.1 e

/-- C94: the element type `fpn_polymod_t`. -/
theorem C94_fpnmod (hb : p ≤ 46341) : EltSpec False fpnModIO (CMod.Rep (CMod.Rep (IntMod.Rep p) M) N)
    (fun t x => ∃ f, Colons (FpRep M) t f ∧ x = AdjoinRoot.mk N f) where
  sub := fun hz => (fpnmod_sub hb hz).sat
  read := by
    rintro z hz ws t x rest hw ⟨f, ht, rfl⟩ hr
    obtain ⟨g, hg, _⟩ := hz.hr
    have hM0 : M ≠ 0 := hM.out.ne_zero
    obtain ⟨ts, xs, hne, rfl, hts, rfl⟩ := ht
    cases hts with
    | nil => exact absurd rfl hne
    | @cons t x ts xs ht hts =>
      have := C93_fpn_stream hb hM0 hg (ts := (ws ++ t) :: ts) (xs := x :: xs) (by simp)
        (.cons (ht.word hw) (hts.imp fun u y hu => hu.word (ws := []) (by simp))) (blank_fp hr) (blank_colon hr)
      rw [intercalate_cons] at this ⊢
      rw [← List.append_assoc]
      show (fpnModExtract _ _).Sat False _
      unfold fpnModExtract
      refine (this.bind fun r hr => (fpnm_mk hb hz.m_ne r.1 _ hr.1 _ hz.hm).bind fun c hc => ?_).sat
      exact ⟨_, rfl, hc, hr.2⟩
  print := by
    intro a x ha
    obtain ⟨f, q, t, h1, h2, h3, rfl, h4, _⟩ := C93_fpnmod_round_trip hb ha
    refine ⟨_, h4, f, ⟨_, (List.range (max 1 N.natDegree)).reverse.map f.coeff, by simp, rfl,
      forall₂_range fun i _ => ⟨q i, fpOut_text (by omega) _, (h3 i).2.symm⟩, (horner_coeffs f ?_).symm⟩, h2.symm⟩
    by_cases h : f = 0
    · rw [h, natDegree_zero]; omega
    · have := natDegree_lt_natDegree h h1; omega
  clean := fun ⟨_, ⟨ts, xs, h1, h2, h3, _⟩, _⟩ => by rw [h2]; exact colons_plain (fun t x h => h.clean) h3 h1
  blanks := by
    rintro z hz ws hw
    obtain ⟨g, hg, _⟩ := hz.hr
    show (fpnModExtract _ _).Sat False _
    unfold fpnModExtract
    refine (fpn_blanks hM.out.ne_zero hb hg hw).sat.bind fun r hr => ?_
    exact (fpnm_mk hb hz.m_ne r.1 _ hr.1 _ hz.hm).sat.bind fun c _ => hr.2

theorem C94_fpnmod_zero (hb : p ≤ 46341) {a : CMod (CMod IntMod)} {x : AdjoinRoot N}
    (ha : CMod.Rep (CMod.Rep (IntMod.Rep p) M) N a x) : (fpnModIO.sub a a).Ok fun z => CMod.Rep (CMod.Rep (IntMod.Rep p) M) N z 0 :=
  fpnmod_sub hb ha

end Fp

section F2n
variable {m : (ZMod 2)[X]}

theorem HexRep.clean {t : List Char} {x : AdjoinRoot m} (h : HexRep m t x) : t ≠ [] ∧ ∀ c ∈ t, plain c = true := by
  obtain ⟨_, h, _⟩ := h
  exact ⟨h.1, fun c hc => hex_plain (h.2.1 c hc)⟩

theorem f2n_read {z : CPoly F2Mod} {g : (AdjoinRoot m)[X]} (hz : PRep (F2Mod.Rep m) z g) {ws t rest : List Char}
    {f : (AdjoinRoot m)[X]} (hw : ∀ c ∈ ws, blank c = true) (ht : Colons (HexRep m) t f) (hr : ∀ c ∈ rest.head?, blank c = true) :
    (f2nExtract true z (ws ++ t ++ rest)).Ok fun r => PRep (F2Mod.Rep m) r.1 f ∧ r.2 = ⟨rest, rest.isEmpty, false⟩ := by
  obtain ⟨ts, xs, hne, rfl, hts, rfl⟩ := ht
  obtain ⟨c0, hc0, hc0'⟩ := hz.c0
  cases hts with
  | nil => exact absurd rfl hne
  | @cons t x ts xs ht hts =>
    have := C93_f2n_stream true hc0'.cm hc0'.hm hc0'.m_ne hc0 rfl (ts := (ws ++ t) :: ts) (xs := x :: xs) (by simp)
      (.cons (ht.word hw) (hts.imp fun u y hu => hu.word (ws := []) (by simp))) (blank_hex hr) (blank_colon hr)
    rw [intercalate_cons] at this ⊢
    rw [← List.append_assoc]
    simpa using this

theorem f2n_blanks {z : CPoly F2Mod} {g : (AdjoinRoot m)[X]} (hz : PRep (F2Mod.Rep m) z g)
    {ws : List Char} (hw : ∀ c ∈ ws, blank c = true) : (f2nExtract true z ws).Ok fun r =>
      PRep (F2Mod.Rep m) r.1 0 ∧ r.2.fail = true := by
  obtain ⟨c0, hc0, hc0'⟩ := hz.c0
  obtain ⟨r, h1, h2⟩ := F2P.read_fail (rest := []) hw (by simp)
  rw [List.append_nil] at h1
  have hrd : rd z.coeffs 0 = ok c0 := by unfold rd; rw [hc0]
  obtain ⟨s, hs, hs1, _⟩ := F2Mod.mk'_ok (r := F2P.ofInt 0) (Canon.good canon_zero) hc0'.cm hc0'.hm hc0'.m_ne
  unfold f2nExtract f2nGet
  rw [hrd, ok_bind, hs, ok_bind, h1, ok_bind]
  simp only [h2, if_true, ok_bind]
  refine ⟨_, rfl, prep_zero ?_, rfl⟩
  rwa [show toPoly (F2P.ofInt 0) = 0 from toPoly_zero, map_zero] at hs1

/-- C94: the element type `f2n_poly_t`. -/
theorem C94_f2n : EltSpec False f2nIO (PRep (F2Mod.Rep m)) (Colons (HexRep m)) where
  sub := fun hz => by
    obtain ⟨c0, hc0, hc0'⟩ := hz.c0
    have := CPoly.sub_sat (F2Mod.cops_ref hc0'.m_ne) hz hz
    rwa [sub_zero] at this
  read := by
    rintro z hz ws t f rest hw ht hr
    exact (f2n_read hz hw ht hr).sat
  print := by
    intro a f ha
    obtain ⟨q, hq, hs⟩ := C93_f2n_print ha
    rw [f2n_sep rfl] at hs
    refine ⟨_, hs, _, (List.range (f.natDegree + 1)).reverse.map f.coeff, by simp, rfl,
      forall₂_range fun i hi => ⟨q i, ⟨hexOf_ne_nil _, allHex_hexOf _, (hexNum_hexOf _).symm⟩, (hq i hi).2.symm⟩,
      (horner_coeffs f (by omega)).symm⟩
  clean := fun ⟨ts, xs, h1, h2, h3, _⟩ => by rw [h2]; exact colons_plain (fun t x h => h.clean) h3 h1
  blanks := by
    rintro z hz ws hw
    exact ((f2n_blanks hz hw).mono fun _ h => h.2).sat

theorem C94_f2n_zero {a : CPoly F2Mod} {f : (AdjoinRoot m)[X]}
    (ha : PRep (F2Mod.Rep m) a f) : (f2nIO.sub a a).Ok fun z => PRep (F2Mod.Rep m) z 0 := by
  obtain ⟨c0, hc0, hc0'⟩ := ha.c0
  have := CPoly.sub_sat (F2Mod.cops_ref hc0'.m_ne) ha ha
  rw [sub_self] at this
  exact sat_false.1 this

variable [hm : Fact (Irreducible m)] {N : (AdjoinRoot m)[X]}

/-- C94: the element type `f2n_polymod_t`. -/
theorem C94_f2nmod : EltSpec False f2nModIO (CMod.Rep (F2Mod.Rep m) N)
    (fun t x => ∃ f, Colons (HexRep m) t f ∧ x = AdjoinRoot.mk N f) where
  sub := fun hz => by
    have := CMod.sub_sat (F2Mod.cops_ref hm.out.ne_zero) hz hz
    rwa [sub_zero] at this
  read := by
    rintro z hz ws t x rest hw ⟨f, ht, rfl⟩ hr
    obtain ⟨g, hg, _⟩ := hz.hr
    show (f2nModExtract _ _).Sat False _
    unfold f2nModExtract
    exact ((f2n_read hg hw ht hr).bind fun r hr => (f2nm_mk hz.m_ne r.1 _ hr.1 _ hz.hm).bind fun c hc => ⟨_, rfl, hc, hr.2⟩).sat
  print := by
    intro a x ha
    obtain ⟨f, q, t, h1, h2, h3, rfl, h4, _⟩ := C93_f2nmod_round_trip ha
    refine ⟨_, h4, f, ⟨_, (List.range (max 1 N.natDegree)).reverse.map f.coeff, by simp, rfl,
      forall₂_range fun i _ => ⟨q i, ⟨hexOf_ne_nil _, allHex_hexOf _, (hexNum_hexOf _).symm⟩, (h3 i).2.symm⟩, (horner_coeffs f ?_).symm⟩, h2.symm⟩
    by_cases h : f = 0
    · rw [h, natDegree_zero]; omega
    · have := natDegree_lt_natDegree h h1; omega
  clean := fun ⟨_, ⟨ts, xs, h1, h2, h3, _⟩, _⟩ => by rw [h2]; exact colons_plain (fun t x h => h.clean) h3 h1
  blanks := by
    rintro z hz ws hw
    obtain ⟨g, hg, _⟩ := hz.hr
    show (f2nModExtract _ _).Sat False _
    unfold f2nModExtract
    refine (f2n_blanks hg hw).sat.bind fun r hr => ?_
    exact (f2nm_mk hz.m_ne r.1 _ hr.1 _ hz.hm).sat.bind fun c _ => hr.2

theorem C94_f2nmod_zero {a : CMod F2Mod} {x : AdjoinRoot N} (ha : CMod.Rep (F2Mod.Rep m) N a x) :
    (f2nModIO.sub a a).Ok fun z => CMod.Rep (F2Mod.Rep m) N z 0 := by
  have := CMod.sub_sat (F2Mod.cops_ref hm.out.ne_zero) ha ha
  rw [sub_self] at this
  exact sat_false.1 this

end F2n

/-! ### Examples -/

/-- Matrices over `intmod_t`: the general theorems with the element type put in. -/
example {A B : TMat IntMod} {xss : List (List (ZMod 7))} (hB : Primed False modIO (IntMod.Rep 7) B) (hA : MRep (IntMod.Rep 7) A xss)
    (hr : 1 ≤ A.num_rows) (hc : 1 ≤ A.num_cols) (hfit : ∀ v ∈ A.rows, ∀ t, showVec modIO v = ok t → t.length < bufSize) :
    ∃ t, showMat modIO A = ok t ∧ (readMat modIO (A.num_cols + 1) B t).Ok fun r => MRep (IntMod.Rep 7) r.1 xss ∧ r.2 = ⟨[], true, false⟩ := by
  obtain ⟨t, h1, h2, _⟩ := C94_matrix_round_trip (C94_mod (by decide) (by decide)) hB hA hr hc hfit (Nat.lt_succ_self _)
  exact ⟨t, h1, sat_false.1 h2⟩

example : readVec modIO 9 [⟨2, 7⟩] "3 12\t6".toList = ok ([⟨3, 7⟩, ⟨5, 7⟩, ⟨6, 7⟩], ⟨[], true, false⟩) := by decide +kernel
example : readVec ratIO 9 [⟨2, 7⟩] "3/6 12".toList = ok ([⟨1, 2⟩, ⟨12, 1⟩], ⟨[], true, false⟩) := by decide +kernel
example : readVec f2IO 9 [[1]] "1f 0".toList = ok ([[0x1f], [0]], ⟨[], true, false⟩) := by decide +kernel
example : readVec f2ModIO 9 [⟨[1], [0x13]⟩] "1f 0".toList = ok ([⟨[0xc], [0x13]⟩, ⟨[0], [0x13]⟩], ⟨[], true, false⟩) := by decide +kernel
example : readVec fpIO 9 [⟨0, [⟨1, 5⟩]⟩] "1 6,0".toList = ok ([⟨0, [⟨1, 5⟩]⟩, ⟨1, [⟨0, 5⟩, ⟨1, 5⟩]⟩], ⟨[], true, false⟩) := by
  decide +kernel
example : readVec f2nIO 9 [⟨0, [⟨[1], [0x13]⟩]⟩] "1 11:1f".toList =
    ok ([⟨0, [⟨[1], [0x13]⟩]⟩, ⟨1, [⟨[0xc], [0x13]⟩, ⟨[2], [0x13]⟩]⟩], ⟨[], true, false⟩) := by decide +kernel

end VText94
end Spffl.Props
