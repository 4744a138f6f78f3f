import Verif.Proof.Scan
import Verif.Props.IntMod
import Verif.Props.IntRat

/-!
# C91: numbers as text
-/

namespace Spffl.Props
namespace Scan91
open Res Spffl.Scan

/-! ### int -/

/-- C91: exactly the texts that start, after white space, with an integer of the `int` range are read, and they are
read as that integer; what follows it is left alone. -/
theorem C91_int (cs : List Char) (n : Int) :
    (readInt cs = ok n ↔ InInt n ∧ ∃ tail, IntText cs n tail) ∧
    (readInt cs = Res.throw ↔ ∀ k tail, IntText cs k tail → ¬ InInt k) :=
  ⟨readInt_ok_iff cs n, readInt_throw_iff cs⟩

example : readInt "  -12/5".toList = ok (-12) ∧ readInt "2147483648".toList = .throw ∧ readInt "x".toList = .throw := by
  decide +kernel

/-- C91: the decimal text of a number has digits only, no leading zero, and is read back as that number. -/
theorem C91_int_round_trip {n : Int} (hn : InInt n) :
    readInt (showInt n) = ok n ∧ (∀ c ∈ showNat n.natAbs, isDig c = true) ∧ decVal (showNat n.natAbs) = n.natAbs ∧
    ((showNat n.natAbs).head? = some '0' → n = 0) :=
  ⟨readInt_show hn, (showNat_spec _).2.1, (showNat_spec _).1, fun h => by have := (showNat_spec _).2.2.2 h; omega⟩

example : String.ofList (showInt (-2147483648)) = "-2147483648" ∧ String.ofList (showInt 1060) = "1060" := by decide +kernel

/-- C91: different numbers are printed differently. -/
theorem C91_int_injective {a b : Int} (h : showInt a = showInt b) : a = b := by
  have h1 := showInt_text a [] (by simp)
  have h2 := showInt_text b [] (by simp)
  rw [h] at h1
  exact (h1.unique h2).1

/-! ### intmod_t -/

/-- C91: `from_string` refuses exactly the texts that do not start with an `int`, and otherwise makes the canonical
residue. -/
theorem C91_mod_from_string {m : Int} (hm : 0 < m) (hm' : InInt m) (cs : List Char) :
    ((∀ k tail, IntText cs k tail → ¬ InInt k) → modFromString m cs = ok none) ∧
    ∀ n tail, IntText cs n tail → InInt n → modFromString m cs = ok (some ⟨n % m, m⟩) := by
  constructor
  · intro h
    have := (readInt_throw_iff cs).2 h
    unfold readInt at this
    unfold modFromString
    simp only at this ⊢
    split at this
    · rename_i hf; simp [hf]
    · cases this
  · intro n tail h hn
    unfold modFromString
    rw [(extractInt_text (v0 := 0) h).1 hn]
    simp only [Bool.false_eq_true, if_false]
    obtain ⟨p, rfl⟩ : ∃ p : ℕ, m = p := ⟨m.toNat, by omega⟩
    obtain ⟨a, ha, hr⟩ := (IntMod.mk'_ok (by omega) hm' hn : (IntMod.mk' n p).Ok _)
    rw [ha]
    simp only [ok_bind, ok.injEq, Option.some.injEq]
    have e := IntMod.C12_construct n p hn hm'
    rw [if_neg (by omega)] at e
    rw [ha] at e
    simpa using e

example : modFromString 7 "-1".toList = ok (some ⟨6, 7⟩) := by decide +kernel

theorem readInto_eq {p k : Int} (hp : 0 < p) (hk : InInt k) : IntMod.readInto ⟨0, p⟩ k = ok ⟨k.tmod p, p⟩ := by
  unfold IntMod.readInto IntMod.check_modulus imod
  rw [if_neg (by simp only; omega), if_neg (by simp only; omega), if_pos]
  · rfl
  · show InInt (k.tdiv p)
    have h1 := Int.natAbs_tdiv_le_natAbs k p
    unfold InInt at *
    rcases le_or_gt 0 k with hx | hx
    · have := Int.tdiv_nonneg hx hp.le
      omega
    · have h := Int.tdiv_nonneg (a := -k) (by omega) hp.le
      rw [Int.neg_tdiv] at h
      omega

/-- C91: `operator>>` into a residue with its modulus set reads an `int` and keeps its remainder. -/
theorem C91_mod_read {p : Int} (hp : 0 < p) (cs : List Char) :
    readMod p cs = (readInt cs >>= fun k => IntMod.readInto ⟨0, p⟩ k) := by
  rw [readMod_eq hp]
  cases h : readInt cs with
  | ok k => simp only [ok_bind]; rw [readInto_eq hp ((readInt_ok_iff cs k).1 h).1]
  | _ => rfl

/-- C91: what `operator<<` prints of a canonical residue is read back as that residue, by both readers. -/
theorem C91_mod_round_trip {a : IntMod} (h0 : 0 ≤ a.residue) (h1 : a.residue < a.modulus) (hm : InInt a.modulus) :
    showMod a = ok (showInt a.residue) ∧ readMod a.modulus (showInt a.residue) = ok a ∧
    modFromString a.modulus (showInt a.residue) = ok (some a) := by
  have hin : InInt a.residue := by unfold InInt at *; omega
  have e : a.residue % a.modulus = a.residue := Int.emod_eq_of_lt h0 h1
  refine ⟨?_, ?_, ?_⟩
  · unfold showMod IntMod.check_modulus
    rw [if_neg (by omega)]; rfl
  · rw [readMod_eq (by omega), readInt_show hin]
    simp only [ok_bind]
    rw [Int.tmod_eq_emod_of_nonneg h0, e]
  · have := (C91_mod_from_string (m := a.modulus) (by omega) hm (showInt a.residue)).2 a.residue []
      (by simpa using showInt_text a.residue [] (by simp)) hin
    rw [this, e]

example : readMod 7 (showInt 5) = ok ⟨5, 7⟩ := by decide +kernel

/-- C91, violated: the two readers of a residue disagree on every text of a negative number that the modulus does not
divide: `operator>>` leaves a negative residue, which is equal to no canonical one. -/
theorem C91_violated_mod_negative {p n : Int} {cs tail : List Char} (hp : 0 < p) (hp' : InInt p) (h : IntText cs n tail)
    (hn : InInt n) (hneg : n < 0) (hd : ¬ p ∣ n) :
    ∃ b c, readMod p cs = ok b ∧ modFromString p cs = ok (some c) ∧ b.residue < 0 ∧ 0 ≤ c.residue ∧
      IntMod.eq b c = ok false := by
  obtain ⟨b, c, h1, h2, h3, h4⟩ := IntMod.C16_violated ⟨0, p⟩ n hp hp' hneg hn hd
  refine ⟨b, c, ?_, ?_, h3, ?_, h4⟩
  · rw [C91_mod_read hp, (readInt_ok_iff cs n).2 ⟨hn, tail, h⟩]
    exact h1
  · unfold modFromString
    rw [(extractInt_text (v0 := 0) h).1 hn]
    simp only [Bool.false_eq_true, if_false]
    rw [show IntMod.mk' n p = ok c from h2]
    rfl
  · have e := (C91_mod_from_string hp hp' cs).2 n tail h hn
    unfold modFromString at e
    rw [(extractInt_text (v0 := 0) h).1 hn] at e
    simp only [Bool.false_eq_true, if_false] at e
    rw [show IntMod.mk' n p = ok c from h2] at e
    simp only [ok_bind, ok.injEq, Option.some.injEq] at e
    rw [e]
    exact Int.emod_nonneg _ (by omega)

example : readMod 7 "-1".toList = ok ⟨-1, 7⟩ ∧ modFromString 7 "-1".toList = ok (some ⟨6, 7⟩) := by decide +kernel

/-! ### intrat_t -/

open Rat17 in
/-- C91: an integer, or a fraction of two of them, is read as the rational it denotes, in lowest terms.  A denominator
of zero throws; the least `int` in either place is undefined. -/
theorem C91_rat {cs t tail : List Char} {n d : Int} (hn : InInt n) (hd : InInt d)
    (h : (IntText cs n tail ∧ tail.head? ≠ some '/' ∧ d = 1) ∨ (IntText cs n ('/' :: t) ∧ IntText t d tail)) :
    (d = 0 → readRat cs = Res.throw) ∧ (d ≠ 0 → (n = INT_MIN ∨ d = INT_MIN) → readRat cs = ub) ∧
    (d ≠ 0 → n ≠ INT_MIN → d ≠ INT_MIN → (readRat cs).Ok fun q => Wf q ∧ value q = (n : ℚ) / d) := by
  have e : readRat cs = IntRat.mk' n d := by
    rcases h with ⟨h, ht, rfl⟩ | ⟨h, h'⟩
    · exact readRat_int h hn ht
    · exact readRat_frac h hn h' hd
  rw [e]
  exact C17_construct n d hn hd

example : readRat " 6/-4 ".toList = ok ⟨-3, 2⟩ := by decide +kernel

open Rat17 in
/-- C91: what `operator<<` prints of a rational in lowest terms is read back as that rational. -/
theorem C91_rat_round_trip {a : IntRat} (ha : Wf a) : readRat (showRat a) = ok a := by
  have hd : a.denom ≠ INT_MIN := by have := ha.1; unfold INT_MIN; omega
  have key := C91_rat (cs := showRat a) (t := showInt a.denom) (tail := []) (n := a.numer) (d := a.denom) ha.2.2.1 ha.2.1 (by
    unfold showRat
    by_cases h : a.denom = 1
    · left
      rw [if_neg (by simpa using h)]
      exact ⟨by simpa using showInt_text a.numer [] (by simp), by simp, h⟩
    · right
      rw [if_pos h]
      refine ⟨showInt_text a.numer _ ?_, by simpa using showInt_text a.denom [] (by simp)⟩
      intro c hc
      simp only [List.head?_cons, Option.mem_def, Option.some.injEq] at hc
      subst hc; decide)
  obtain ⟨q, hq, hw, hv⟩ := key.2.2 ha.1.ne' ha.2.2.2.1 hd
  rw [hq, (C17_unique hw ha).1 hv]

example : String.ofList (showRat ⟨-3, 2⟩) = "-3/2" ∧ readRat (showRat ⟨-3, 2⟩) = ok ⟨-3, 2⟩ := by decide +kernel

/-- C91: a slash after which there is no `int` is refused. -/
theorem C91_rat_bad_denominator {cs t : List Char} {n : Int} (hn : InInt n) (h : IntText cs n ('/' :: t))
    (h' : ∀ d tail, IntText t d tail → ¬ InInt d) (q : IntRat) : readRat cs ≠ ok q :=
  readRat_bad_denom h hn h' q

example : readRat "3/x".toList = .throw := by decide +kernel

/-- A text of white space only, or of a sign and nothing else, is refused. -/
theorem C91_rat_empty {cs : List Char} (h : (takeSign (cs.dropWhile isSpace)).2 = []) : readRat cs = Res.throw := by
  have hnone : ¬ ∃ n tail, IntText cs n tail := by
    rintro ⟨n, tail, ws, ds, hw, hn, hd, ht, h' | h' | h'⟩
    · obtain ⟨rfl, rfl⟩ := h'
      rw [List.append_assoc, dropWhile_space hw, takeSign_dig hd hn] at h
      · simp [hn] at h
      · intro c hc
        rw [List.head?_append_of_ne_nil _ hn] at hc
        exact dig_not_space (hd c (List.mem_of_mem_head? hc))
    · obtain ⟨rfl, rfl⟩ := h'
      rw [List.append_assoc, dropWhile_space hw] at h
      · simp [takeSign, hn] at h
      · intro c hc
        simp only [List.cons_append, List.head?_cons, Option.mem_def, Option.some.injEq] at hc
        subst hc; rfl
    · obtain ⟨rfl, rfl⟩ := h'
      rw [List.append_assoc, dropWhile_space hw] at h
      · simp [takeSign, hn] at h
      · intro c hc
        simp only [List.cons_append, List.head?_cons, Option.mem_def, Option.some.injEq] at hc
        subst hc; rfl
  have hx := extractInt_none (v0 := 0) hnone
  have heof : (extractInt 0 (.ofChars cs)).2.eof = true := by
    rcases hx.2 with hx | hx
    · rw [hx.2]
    · rw [hx.2.2.2, h]; rfl
  have e : (extractInt 0 (.ofChars cs)).1 = 0 := by
    rcases hx.2 with hx | hx
    · rw [hx.2]
    · exact hx.1
  rw [readRat_of (d := 1) (s := (extractInt 0 (.ofChars cs)).2) e (by unfold ratDenom; rw [if_pos heof])]
  rw [hx.1]
  rfl

example : readRat " \t".toList = .throw ∧ readRat "-".toList = .throw := by decide +kernel

/-- C91, violated: any other text that does not start with an integer is read as zero: the failure recorded for the
numerator is cleared when no slash follows. -/
theorem C91_violated_rat_not_a_number {cs : List Char} (h : ¬ ∃ n tail, IntText cs n tail)
    (h' : (takeSign (cs.dropWhile isSpace)).2 ≠ []) : readRat cs = ok ⟨0, 1⟩ := by
  have hx := extractInt_none (v0 := 0) h
  rcases hx.2 with h2 | h2
  · rw [h2.1] at h'; exact absurd rfl h'
  · have heof : (extractInt 0 (.ofChars cs)).2.eof = false := by
      rw [h2.2.2.2]
      cases hc : (takeSign (cs.dropWhile isSpace)).2 with
      | nil => exact absurd hc h'
      | cons c r => rfl
    have : ∃ s : IStream, ratDenom 1 (extractInt 0 (.ofChars cs)).2 = (1, s) ∧ s.fail = false := by
      refine ⟨⟨(extractInt 0 (.ofChars cs)).2.cs, false, false⟩, ?_, rfl⟩
      simp [ratDenom, IStream.peek, IStream.good, heof, hx.1]
    obtain ⟨s, hs, hf⟩ := this
    rw [readRat_of h2.1 hs, hf]
    decide

example : readRat "abc".toList = ok ⟨0, 1⟩ ∧ readRat "/2".toList = ok ⟨0, 1⟩ ∧ readRat "-x".toList = ok ⟨0, 1⟩ := by
  decide +kernel

/-- C91, violated: a numerator above the `int` range is refused when the text ends there, but read as the greatest
`int` when anything follows; a denominator is then dropped. -/
theorem C91_violated_rat_overflow {cs tail : List Char} {n : Int} (h : IntText cs n tail) (hn : INT_MAX < n) :
    readRat cs = if tail = [] then Res.throw else ok ⟨INT_MAX, 1⟩ := by
  have hmax : INT_MAX = 2147483647 := rfl
  have hni : ¬ InInt n := by unfold InInt; omega
  obtain ⟨h1, h2, h3, _⟩ := (extractInt_text (v0 := 0) h).2 hni
  have hv : (extractInt 0 (.ofChars cs)).1 = INT_MAX := by
    have cl : ∀ k : Nat, (k : Int) = n → (clampInt false true k).1 = INT_MAX := by
      rintro k rfl
      have e : clampInt false true k = if (k : Int) < INT_MIN then (INT_MIN, true) else if INT_MAX < (k : Int) then (INT_MAX, true) else (k, false) := rfl
      have hmin : INT_MIN = -2147483648 := rfl
      rw [e, if_neg (by omega), if_pos hn]
    obtain ⟨ws, ds, hw, hne, hd, ht, h | h | h⟩ := h
    · obtain ⟨rfl, rfl⟩ := h
      rw [extractInt_good (t := ds ++ tail) _ (by simp [hne]), getInt_plain hd hne ht]
      · exact cl _ rfl
      · rw [List.append_assoc]
        refine dropWhile_space hw fun c hc => ?_
        rw [List.head?_append_of_ne_nil _ hne] at hc
        exact dig_not_space (hd c (List.mem_of_mem_head? hc))
    · obtain ⟨rfl, rfl⟩ := h
      rw [extractInt_good (t := '+' :: (ds ++ tail)) _ (by simp), getInt_plus hd hne ht]
      · exact cl _ rfl
      · rw [List.append_assoc]
        refine dropWhile_space hw fun c hc => ?_
        simp only [List.cons_append, List.head?_cons, Option.mem_def, Option.some.injEq] at hc
        subst hc; rfl
    · omega
  split
  · rename_i ht
    subst ht
    rw [readRat_of (d := 1) (s := (extractInt 0 (.ofChars cs)).2) hv (by unfold ratDenom; rw [if_pos (by rw [h3]; rfl)]), h1]
    decide +kernel
  · rename_i ht
    have heof : (extractInt 0 (.ofChars cs)).2.eof = false := by
      rw [h3]
      cases tail with
      | nil => exact absurd rfl ht
      | cons c r => rfl
    have : ratDenom 1 (extractInt 0 (.ofChars cs)).2 = (1, ⟨(extractInt 0 (.ofChars cs)).2.cs, false, false⟩) := by
      simp [ratDenom, IStream.peek, IStream.good, heof, h1]
    rw [readRat_of hv this]
    have es : IntRat.simplify ⟨INT_MAX, 1⟩ = ok ⟨INT_MAX, 1⟩ := by decide +kernel
    rw [es]
    rfl

example : readRat "99999999999".toList = .throw ∧ readRat "99999999999/3".toList = ok ⟨2147483647, 1⟩ := by decide +kernel

open Rat17 in
/-- C91, violated: the reader for general streams never reports the end of the input.  At the end it leaves the integer
part that the object held, and a stream in the good state, so a loop that reads until failure does not end. -/
theorem C91_violated_rat_stream_end {a : IntRat} (ha : Wf a) :
    ∃ b, extractRatS a [] = ok (b, ⟨[], false, false⟩) ∧ b.numer = a.numer ∧ b.denom = 1 ∧
      extractRatS b [] = ok (b, ⟨[], false, false⟩) := by
  have e : ∀ x : IntRat, extractRatS x [] = (IntRat.mk' x.numer 1 >>= fun q => ok (q, (⟨[], false, false⟩ : IStream))) := fun _ => rfl
  obtain ⟨q, hq, hw, hv⟩ := (C17_construct a.numer 1 ha.2.2.1 (by unfold InInt; omega)).2.2 (by simp) ha.2.2.2.1 (by decide)
  have hwf : Wf ⟨a.numer, 1⟩ := ⟨by simp, by unfold InInt; simp, ha.2.2.1, ha.2.2.2.1, by simp⟩
  have : q = ⟨a.numer, 1⟩ := (C17_unique hw hwf).1 (by rw [hv]; simp [value])
  subst this
  refine ⟨⟨a.numer, 1⟩, ?_, rfl, rfl, ?_⟩
  · rw [e, hq]; rfl
  · rw [e, hq]; rfl

example : extractRatS ⟨7, 2⟩ [] = ok (⟨7, 1⟩, ⟨[], false, false⟩) := by decide +kernel

end Scan91
end Spffl.Props
