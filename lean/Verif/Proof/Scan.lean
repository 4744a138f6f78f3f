import Verif.Model.Scan
import Verif.Proof.IntRat
import Mathlib.Data.Nat.Digits.Lemmas

/-!
# Numbers as text: proofs
-/

namespace Spffl.Scan
open Res

/-! ### Specification -/

/-- The value of a string of digits, most significant first. -/
def decVal (ds : List Char) : Nat := Nat.ofDigits 10 (ds.reverse.map fun c => c.toNat - 48)

/-- `IntText cs n tail`: `cs` is white space, an optional sign, at least one digit, and `tail`, which does not go on
with a digit; the number so written is `n`. -/
def IntText (cs : List Char) (n : Int) (tail : List Char) : Prop :=
  ∃ ws ds : List Char, (∀ c ∈ ws, isSpace c = true) ∧ ds ≠ [] ∧ (∀ c ∈ ds, isDig c = true) ∧
    (∀ c ∈ tail.head?, isDig c = false) ∧
    ((cs = ws ++ ds ++ tail ∧ n = decVal ds) ∨ (cs = ws ++ '+' :: ds ++ tail ∧ n = decVal ds) ∨
      (cs = ws ++ '-' :: ds ++ tail ∧ n = -(decVal ds : Int)))

/-! ### Digits -/

theorem decVal_snoc (ds : List Char) (c : Char) : decVal (ds ++ [c]) = 10 * decVal ds + (c.toNat - 48) := by
  simp [decVal, Nat.ofDigits_cons]; omega

theorem takeDigits_split (ds tail : List Char) (hd : ∀ c ∈ ds, isDig c = true) (ht : ∀ c ∈ tail.head?, isDig c = false)
    (pre : List Char) : takeDigits (ds ++ tail) (decVal pre) = (decVal (pre ++ ds), tail) := by
  induction ds generalizing pre with
  | nil =>
    cases tail with
    | nil => simp [takeDigits]
    | cons c r => simp [takeDigits, ht c (by simp)]
  | cons c r ih =>
    have hc := hd c (by simp)
    have := ih (fun x hx => hd x (by simp [hx])) (pre ++ [c])
    simp only [List.cons_append, takeDigits, hc, if_true]
    rw [decVal_snoc] at this
    simpa [digVal] using this

theorem takeDigits_eq (ds tail : List Char) (hd : ∀ c ∈ ds, isDig c = true) (ht : ∀ c ∈ tail.head?, isDig c = false) :
    takeDigits (ds ++ tail) 0 = (decVal ds, tail) := takeDigits_split ds tail hd ht []

theorem takeWhile_all (p : Char → Bool) (l : List Char) : ∀ c ∈ l.takeWhile p, p c = true := by
  induction l with
  | nil => simp
  | cons a r ih =>
    by_cases h : p a = true
    · simp only [List.takeWhile, h, List.mem_cons]
      rintro c (rfl | hc)
      · exact h
      · exact ih c hc
    · simp [List.takeWhile, h]

theorem span_dig (cs : List Char) : ∃ ds tail, cs = ds ++ tail ∧ (∀ c ∈ ds, isDig c = true) ∧
    (∀ c ∈ tail.head?, isDig c = false) := by
  refine ⟨cs.takeWhile isDig, cs.dropWhile isDig, (List.takeWhile_append_dropWhile).symm,
    fun c hc => takeWhile_all _ _ _ hc, fun c hc => ?_⟩
  have := List.head?_dropWhile_not isDig cs
  rw [Option.mem_def] at hc
  rw [hc] at this
  simpa using this

theorem ofNat_dig {n : Nat} (h : n < 10) : (Char.ofNat (n + 48)).toNat = n + 48 := by
  have : ∀ n < 10, (Char.ofNat (n + 48)).toNat = n + 48 := by decide
  exact this n h

theorem showNat_spec (n : Nat) : decVal (showNat n) = n ∧ (∀ c ∈ showNat n, isDig c = true) ∧ showNat n ≠ [] ∧
    ((showNat n).head? = some '0' → n = 0) := by
  induction n using Nat.strongRecOn with
  | _ n ih =>
    rw [showNat]
    split
    · rename_i h
      refine ⟨by simp [decVal, ofNat_dig h], ?_, by simp, ?_⟩
      · intro c hc
        simp only [List.mem_singleton] at hc
        subst hc
        simp [isDig, ofNat_dig h]; omega
      · intro hc
        simp only [List.head?_cons, Option.some.injEq] at hc
        have := congrArg Char.toNat hc
        rw [ofNat_dig h] at this
        simpa using this
    · rename_i h
      obtain ⟨h1, h2, h3, h4⟩ := ih (n / 10) (by omega)
      have hm : n % 10 < 10 := by omega
      refine ⟨?_, ?_, by simp, ?_⟩
      · rw [decVal_snoc, h1, ofNat_dig hm]; omega
      · intro c hc
        simp only [List.mem_append, List.mem_singleton] at hc
        rcases hc with hc | rfl
        · exact h2 c hc
        · simp [isDig, ofNat_dig hm]; omega
      · intro hc
        rw [List.head?_append_of_ne_nil _ h3] at hc
        have := h4 hc
        omega

theorem dig_not_space {c : Char} (h : isDig c = true) : isSpace c = false := by
  simp only [isDig, decide_eq_true_eq] at h
  unfold isSpace
  have : ∀ d : Char, d.toNat < 48 → c ≠ d := by rintro d hd rfl; exact absurd h.1 (by simpa using hd)
  simp [this ' ' (by decide), this '\t' (by decide), this '\n' (by decide), this '\x0b' (by decide),
    this '\x0c' (by decide), this '\r' (by decide)]

theorem dig_not_sign {c : Char} (h : isDig c = true) : c ≠ '-' ∧ c ≠ '+' := by
  constructor <;> rintro rfl <;> revert h <;> decide

/-! ### Reading an int -/

theorem takeSign_dig {ds tail : List Char} (hd : ∀ c ∈ ds, isDig c = true) (hn : ds ≠ []) :
    takeSign (ds ++ tail) = (false, ds ++ tail) := by
  cases ds with
  | nil => exact absurd rfl hn
  | cons c r =>
    obtain ⟨h1, h2⟩ := dig_not_sign (hd c (by simp))
    simp [takeSign, h1, h2]

theorem getInt_plain {ds tail : List Char} (hd : ∀ c ∈ ds, isDig c = true) (hn : ds ≠ [])
    (ht : ∀ c ∈ tail.head?, isDig c = false) :
    getInt (ds ++ tail) = ((clampInt false true (decVal ds)).1, ⟨tail, tail.isEmpty, (clampInt false true (decVal ds)).2⟩) := by
  unfold getInt
  have : tail.length < (ds ++ tail).length := by
    have := List.length_pos_iff.2 hn
    simp; omega
  simp only [takeSign_dig hd hn, takeDigits_eq ds tail hd ht, this, decide_true]

theorem getInt_plus {ds tail : List Char} (hd : ∀ c ∈ ds, isDig c = true) (hn : ds ≠ [])
    (ht : ∀ c ∈ tail.head?, isDig c = false) :
    getInt ('+' :: (ds ++ tail)) = ((clampInt false true (decVal ds)).1, ⟨tail, tail.isEmpty, (clampInt false true (decVal ds)).2⟩) := by
  unfold getInt
  have : tail.length < (ds ++ tail).length := by
    have := List.length_pos_iff.2 hn
    simp; omega
  have h : takeSign ('+' :: (ds ++ tail)) = (false, ds ++ tail) := by simp [takeSign]
  simp only [h, takeDigits_eq ds tail hd ht, this, decide_true]

theorem getInt_minus {ds tail : List Char} (hd : ∀ c ∈ ds, isDig c = true) (hn : ds ≠ [])
    (ht : ∀ c ∈ tail.head?, isDig c = false) :
    getInt ('-' :: (ds ++ tail)) = ((clampInt true true (decVal ds)).1, ⟨tail, tail.isEmpty, (clampInt true true (decVal ds)).2⟩) := by
  unfold getInt
  have : tail.length < (ds ++ tail).length := by
    have := List.length_pos_iff.2 hn
    simp; omega
  have h : takeSign ('-' :: (ds ++ tail)) = (true, ds ++ tail) := by simp [takeSign]
  simp only [h, takeDigits_eq ds tail hd ht, this, decide_true]

theorem clamp_true (neg : Bool) (k : Nat) : let n : Int := if neg then -(k : Int) else k
    (InInt n → clampInt neg true k = (n, false)) ∧ (¬ InInt n → (clampInt neg true k).2 = true) ∧
    InInt (clampInt neg true k).1 := by
  intro n
  have e : clampInt neg true k = if n < INT_MIN then (INT_MIN, true) else if INT_MAX < n then (INT_MAX, true) else (n, false) := rfl
  rw [e]
  have hmin : INT_MIN = -2147483648 := rfl
  have hmax : INT_MAX = 2147483647 := rfl
  refine ⟨fun h => ?_, fun h => ?_, ?_⟩
  · unfold InInt at h
    rw [if_neg (by omega), if_neg (by omega)]
  · unfold InInt at h
    split
    · rfl
    · rw [if_pos (by omega)]
  · split
    · unfold InInt; simp only; omega
    · split
      · unfold InInt; simp only; omega
      · unfold InInt; simp only; omega

theorem dropWhile_space {ws cs : List Char} (hw : ∀ c ∈ ws, isSpace c = true) (hc : ∀ c ∈ cs.head?, isSpace c = false) :
    (ws ++ cs).dropWhile isSpace = cs := by
  induction ws with
  | nil =>
    cases cs with
    | nil => rfl
    | cons c r => simp [List.dropWhile, hc c (by simp)]
  | cons w r ih => simp [List.dropWhile, hw w (by simp), ih fun c h => hw c (by simp [h])]

theorem extractInt_good {cs t : List Char} {v0 : Int} (h : cs.dropWhile isSpace = t) (ht : t ≠ []) :
    extractInt v0 (.ofChars cs) = getInt t := by
  unfold extractInt
  have : (IStream.ofChars cs).good = true := rfl
  rw [if_pos this]
  show (match cs.dropWhile isSpace with | [] => _ | cs => getInt cs) = _
  rw [h]
  cases t with
  | nil => exact absurd rfl ht
  | cons c r => rfl

/-- A text that starts with an integer in range is read as that integer; one out of range sets the failure bit. -/
theorem extractInt_text {cs tail : List Char} {n v0 : Int} (h : IntText cs n tail) :
    (InInt n → extractInt v0 (.ofChars cs) = (n, ⟨tail, tail.isEmpty, false⟩)) ∧
    (¬ InInt n → (extractInt v0 (.ofChars cs)).2.fail = true ∧ (extractInt v0 (.ofChars cs)).2.cs = tail ∧
      (extractInt v0 (.ofChars cs)).2.eof = tail.isEmpty ∧ InInt (extractInt v0 (.ofChars cs)).1) := by
  obtain ⟨ws, ds, hw, hn, hd, ht, h | h | h⟩ := h
  · obtain ⟨rfl, rfl⟩ := h
    have e : extractInt v0 (.ofChars (ws ++ ds ++ tail)) = getInt (ds ++ tail) := by
      refine extractInt_good ?_ (by simp [hn])
      rw [List.append_assoc]
      refine dropWhile_space hw fun c hc => ?_
      rw [List.head?_append_of_ne_nil _ hn] at hc
      exact dig_not_space (hd c (List.mem_of_mem_head? hc))
    rw [e, getInt_plain hd hn ht]
    have := clamp_true false (decVal ds)
    refine ⟨fun h => ?_, fun h => ⟨?_, rfl, rfl, this.2.2⟩⟩
    · rw [this.1 h]; rfl
    · exact this.2.1 h
  · obtain ⟨rfl, rfl⟩ := h
    have e : extractInt v0 (.ofChars (ws ++ '+' :: ds ++ tail)) = getInt ('+' :: (ds ++ tail)) := by
      refine extractInt_good ?_ (by simp)
      rw [List.append_assoc]
      refine dropWhile_space hw fun c hc => ?_
      simp only [List.cons_append, List.head?_cons, Option.mem_def, Option.some.injEq] at hc
      subst hc; rfl
    rw [e, getInt_plus hd hn ht]
    have := clamp_true false (decVal ds)
    refine ⟨fun h => ?_, fun h => ⟨?_, rfl, rfl, this.2.2⟩⟩
    · rw [this.1 h]; rfl
    · exact this.2.1 h
  · obtain ⟨rfl, rfl⟩ := h
    have e : extractInt v0 (.ofChars (ws ++ '-' :: ds ++ tail)) = getInt ('-' :: (ds ++ tail)) := by
      refine extractInt_good ?_ (by simp)
      rw [List.append_assoc]
      refine dropWhile_space hw fun c hc => ?_
      simp only [List.cons_append, List.head?_cons, Option.mem_def, Option.some.injEq] at hc
      subst hc; rfl
    rw [e, getInt_minus hd hn ht]
    have := clamp_true true (decVal ds)
    refine ⟨fun h => ?_, fun h => ⟨?_, rfl, rfl, this.2.2⟩⟩
    · rw [this.1 h]; rfl
    · exact this.2.1 h

/-- A text that does not start with an integer: the failure bit is set. -/
theorem extractInt_none {cs : List Char} {v0 : Int} (h : ¬ ∃ n tail, IntText cs n tail) :
    (extractInt v0 (.ofChars cs)).2.fail = true ∧
      ((cs.dropWhile isSpace = [] ∧ extractInt v0 (.ofChars cs) = (v0, ⟨[], true, true⟩)) ∨
        (extractInt v0 (.ofChars cs)).1 = 0 ∧ cs.dropWhile isSpace ≠ [] ∧
          (extractInt v0 (.ofChars cs)).2.cs = (takeSign (cs.dropWhile isSpace)).2 ∧
          (extractInt v0 (.ofChars cs)).2.eof = (takeSign (cs.dropWhile isSpace)).2.isEmpty) := by
  cases ht : cs.dropWhile isSpace with
  | nil =>
    have : extractInt v0 (.ofChars cs) = (v0, ⟨[], true, true⟩) := by
      unfold extractInt
      rw [if_pos (show (IStream.ofChars cs).good = true from rfl)]
      show (match cs.dropWhile isSpace with | [] => _ | cs => getInt cs) = _
      rw [ht]
    rw [this]
    exact ⟨rfl, .inl ⟨rfl, rfl⟩⟩
  | cons c r =>
    rw [extractInt_good ht (by simp)]
    have hws : ∀ x ∈ cs.takeWhile isSpace, isSpace x = true := fun x hx => takeWhile_all _ _ _ hx
    have hcs : cs = cs.takeWhile isSpace ++ c :: r := by
      conv_lhs => rw [← List.takeWhile_append_dropWhile (p := isSpace) (l := cs)]
      rw [ht]
    have key : ∀ t, (takeSign (c :: r)).2 = t → takeDigits t 0 = (0, t) := by
      intro t htt
      obtain ⟨ds, tail, rfl, hd, htl⟩ := span_dig t
      by_cases hn : ds = []
      · subst hn
        have := takeDigits_eq [] tail hd htl
        simpa [decVal] using this
      · exfalso
        apply h
        simp only [takeSign] at htt
        split at htt
        · rename_i hc
          subst hc
          simp only at htt
          exact ⟨_, tail, _, ds, hws, hn, hd, htl, .inr (.inr ⟨by rw [List.append_assoc]; simpa [htt] using hcs, rfl⟩)⟩
        · split at htt
          · rename_i hc
            subst hc
            simp only at htt
            exact ⟨_, tail, _, ds, hws, hn, hd, htl, .inr (.inl ⟨by rw [List.append_assoc]; simpa [htt] using hcs, rfl⟩)⟩
          · simp only at htt
            exact ⟨_, tail, _, ds, hws, hn, hd, htl, .inl ⟨by rw [List.append_assoc]; simpa [htt] using hcs, rfl⟩⟩
    have kk := key _ rfl
    have e : getInt (c :: r) = (0, ⟨(takeSign (c :: r)).2, (takeSign (c :: r)).2.isEmpty, true⟩) := by
      unfold getInt
      simp only [kk, lt_irrefl, decide_false]
      rfl
    rw [e]
    exact ⟨rfl, .inr ⟨rfl, by simp, rfl, rfl⟩⟩

/-- A text starts with at most one integer. -/
theorem IntText.unique {cs t t' : List Char} {n n' : Int} (h : IntText cs n t) (h' : IntText cs n' t') :
    n = n' ∧ t = t' := by
  -- the digits are read by one run of the scanner whatever the range, so compare runs
  have key : ∀ {n t}, IntText cs n t → ∃ neg, takeDigits (takeSign (cs.dropWhile isSpace)).2 0 = (n.natAbs, t) ∧
      (takeSign (cs.dropWhile isSpace)).1 = neg ∧ n = if neg then -(n.natAbs : Int) else n.natAbs := by
    intro n t h
    obtain ⟨ws, ds, hw, hn, hd, ht, h | h | h⟩ := h
    · obtain ⟨rfl, rfl⟩ := h
      have : (ws ++ ds ++ t).dropWhile isSpace = ds ++ t := by
        rw [List.append_assoc]
        refine dropWhile_space hw fun c hc => ?_
        rw [List.head?_append_of_ne_nil _ hn] at hc
        exact dig_not_space (hd c (List.mem_of_mem_head? hc))
      refine ⟨false, ?_, ?_, ?_⟩
      · rw [this, takeSign_dig hd hn]; simpa using takeDigits_eq ds t hd ht
      · rw [this, takeSign_dig hd hn]
      · simp
    · obtain ⟨rfl, rfl⟩ := h
      have : (ws ++ '+' :: ds ++ t).dropWhile isSpace = '+' :: (ds ++ t) := by
        rw [List.append_assoc]
        refine dropWhile_space hw fun c hc => ?_
        simp only [List.cons_append, List.head?_cons, Option.mem_def, Option.some.injEq] at hc
        subst hc; rfl
      have e : takeSign ('+' :: (ds ++ t)) = (false, ds ++ t) := by simp [takeSign]
      refine ⟨false, ?_, ?_, ?_⟩
      · rw [this, e]; simpa using takeDigits_eq ds t hd ht
      · rw [this, e]
      · simp
    · obtain ⟨rfl, rfl⟩ := h
      have : (ws ++ '-' :: ds ++ t).dropWhile isSpace = '-' :: (ds ++ t) := by
        rw [List.append_assoc]
        refine dropWhile_space hw fun c hc => ?_
        simp only [List.cons_append, List.head?_cons, Option.mem_def, Option.some.injEq] at hc
        subst hc; rfl
      have e : takeSign ('-' :: (ds ++ t)) = (true, ds ++ t) := by simp [takeSign]
      refine ⟨true, ?_, ?_, ?_⟩
      · rw [this, e]; simpa using takeDigits_eq ds t hd ht
      · rw [this, e]
      · simp
  obtain ⟨b, h1, h2, h3⟩ := key h
  obtain ⟨b', h1', h2', h3'⟩ := key h'
  rw [h1] at h1'
  rw [h2] at h2'
  have := Prod.ext_iff.1 h1'
  simp only at this
  refine ⟨?_, this.2⟩
  rw [h3, h3', h2', this.1]

theorem readInt_ok_iff (cs : List Char) (n : Int) : readInt cs = ok n ↔ InInt n ∧ ∃ tail, IntText cs n tail := by
  unfold readInt
  by_cases h : ∃ n tail, IntText cs n tail
  · obtain ⟨k, tail, h⟩ := h
    obtain ⟨h1, h2⟩ := extractInt_text (v0 := 0) h
    by_cases hk : InInt k
    · rw [h1 hk]
      simp only [Bool.false_eq_true, if_false, ok.injEq]
      constructor
      · rintro rfl; exact ⟨hk, tail, h⟩
      · rintro ⟨_, t', h'⟩; exact (h.unique h').1
    · simp only [(h2 hk).1, if_true]
      constructor
      · intro h; cases h
      · rintro ⟨hn, t', h'⟩
        rw [← (h.unique h').1] at hn
        exact absurd hn hk
  · simp only [(extractInt_none h).1, if_true]
    constructor
    · intro h; cases h
    · rintro ⟨_, t, h'⟩; exact absurd ⟨n, t, h'⟩ h

theorem readInt_throw_iff (cs : List Char) : readInt cs = throw ↔ ∀ n tail, IntText cs n tail → ¬ InInt n := by
  constructor
  · intro h n tail ht hn
    rw [(readInt_ok_iff cs n).2 ⟨hn, tail, ht⟩] at h
    cases h
  · intro h
    have : readInt cs = throw ∨ ∃ n, readInt cs = ok n := by
      unfold readInt
      simp only
      split
      · exact .inl rfl
      · exact .inr ⟨_, rfl⟩
    rcases this with h' | ⟨n, h'⟩
    · exact h'
    · obtain ⟨hn, t, ht⟩ := (readInt_ok_iff cs n).1 h'
      exact absurd hn (h n t ht)

theorem showInt_text (n : Int) (tail : List Char) (ht : ∀ c ∈ tail.head?, isDig c = false) :
    IntText (showInt n ++ tail) n tail := by
  obtain ⟨h1, h2, h3, _⟩ := showNat_spec n.natAbs
  refine ⟨[], showNat n.natAbs, by simp, h3, h2, ht, ?_⟩
  unfold showInt
  split
  · exact .inr (.inr ⟨by simp, by rw [h1]; omega⟩)
  · exact .inl ⟨by simp, by rw [h1]; omega⟩

theorem readInt_show {n : Int} (h : InInt n) : readInt (showInt n) = ok n := by
  rw [readInt_ok_iff]
  exact ⟨h, [], by simpa using showInt_text n [] (by simp)⟩

/-! ### intmod_t -/

theorem blank_space {c : Char} (h : blank c = true) : isSpace c = true := by
  simp only [blank, Bool.or_eq_true, decide_eq_true_eq] at h
  rcases h with (rfl | rfl) | rfl <;> rfl

theorem dropWhile_dropWhile {p q : Char → Bool} (h : ∀ c, p c = true → q c = true) (cs : List Char) :
    (cs.dropWhile p).dropWhile q = cs.dropWhile q := by
  induction cs with
  | nil => rfl
  | cons c r ih =>
    by_cases hp : p c = true
    · simp [List.dropWhile, hp, h c hp, ih]
    · simp [List.dropWhile, hp]

theorem extractInt_congr {cs cs' : List Char} {v0 : Int} (h : cs.dropWhile isSpace = cs'.dropWhile isSpace) :
    extractInt v0 (.ofChars cs) = extractInt v0 (.ofChars cs') := by
  unfold extractInt
  rw [if_pos (show (IStream.ofChars cs).good = true from rfl), if_pos (show (IStream.ofChars cs').good = true from rfl)]
  show (match cs.dropWhile isSpace with | [] => _ | cs => getInt cs) = (match cs'.dropWhile isSpace with | [] => _ | cs => getInt cs)
  rw [h]

theorem extractInt_inInt (cs : List Char) : InInt (extractInt 0 (.ofChars cs)).1 := by
  by_cases h : ∃ n tail, IntText cs n tail
  · obtain ⟨n, tail, h⟩ := h
    obtain ⟨h1, h2⟩ := extractInt_text (v0 := 0) h
    by_cases hn : InInt n
    · rw [h1 hn]; exact hn
    · exact (h2 hn).2.2.2
  · rcases (extractInt_none (v0 := 0) h).2 with h | h
    · rw [h.2]; unfold InInt; simp
    · rw [h.1]; unfold InInt; simp

theorem readMod_eq {p : Int} (hp : 0 < p) (cs : List Char) :
    readMod p cs = (readInt cs >>= fun k => ok ⟨k.tmod p, p⟩) := by
  have hi := extractInt_inInt cs
  have hm : imod (extractInt 0 (.ofChars cs)).1 p = ok ((extractInt 0 (.ofChars cs)).1.tmod p) := by
    unfold imod
    rw [if_neg (by omega), if_pos]
    generalize (extractInt 0 (.ofChars cs)).1 = x at hi
    have h1 := Int.natAbs_tdiv_le_natAbs x p
    unfold InInt at *
    rcases le_or_gt 0 x with hx | hx
    · have := Int.tdiv_nonneg hx hp.le
      omega
    · have h := Int.tdiv_nonneg (a := -x) (by omega) hp.le
      rw [Int.neg_tdiv] at h
      omega
  unfold readMod extractMod readInt
  have hd : (cs.dropWhile blank).dropWhile isSpace = cs.dropWhile isSpace := dropWhile_dropWhile (fun c => blank_space) cs
  cases hb : cs.dropWhile blank with
  | nil =>
    rw [hb] at hd
    have : extractInt 0 (.ofChars cs) = extractInt 0 (.ofChars []) := extractInt_congr hd.symm
    rw [this]
    rfl
  | cons c r =>
    rw [hb] at hd
    have e : extractInt 0 (.ofChars (c :: r)) = extractInt 0 (.ofChars cs) := extractInt_congr hd
    have hc : IntMod.check_modulus ⟨0, p⟩ = ok () := by
      unfold IntMod.check_modulus
      rw [if_neg]; simp only; omega
    simp only [hc, ok_bind, e, hm]
    split <;> rfl

/-! ### intrat_t -/

theorem skipRat_space (cs : List Char) : (skipRat cs).dropWhile isSpace = cs.dropWhile isSpace := by
  unfold skipRat
  rw [dropWhile_dropWhile, dropWhile_dropWhile, dropWhile_dropWhile]
  all_goals
    intro c hc
    simp only [decide_eq_true_eq] at hc
    subst hc
    rfl

/-- The numerator and the stream after it. -/
theorem extractRat_eq (cs : List Char) : extractRat ⟨0, 1⟩ cs = (do
    let q ← IntRat.simplify ⟨(extractInt 0 (.ofChars cs)).1, (ratDenom 1 (extractInt 0 (.ofChars cs)).2).1⟩
    ok (q, (ratDenom 1 (extractInt 0 (.ofChars cs)).2).2)) := by
  unfold extractRat
  have e : extractInt 0 ⟨skipRat cs, (skipRat cs).isEmpty, false⟩ = extractInt 0 (.ofChars cs) := by
    have := skipRat_space cs
    cases hs : skipRat cs with
    | nil =>
      rw [hs] at this
      rw [extractInt_congr (cs' := []) this.symm]
      rfl
    | cons c r =>
      rw [hs] at this
      exact extractInt_congr (cs := c :: r) this
  simp only [e]

theorem readRat_of {cs : List Char} {n d : Int} {s : IStream} (h1 : (extractInt 0 (.ofChars cs)).1 = n)
    (h2 : ratDenom 1 (extractInt 0 (.ofChars cs)).2 = (d, s)) :
    readRat cs = (IntRat.simplify ⟨n, d⟩ >>= fun q => if s.fail then throw else ok q) := by
  unfold readRat
  rw [extractRat_eq, h1, h2]
  simp only [bind_assoc, ok_bind]

/-- Numerator only. -/
theorem readRat_int {cs tail : List Char} {n : Int} (h : IntText cs n tail) (hn : InInt n) (ht : tail.head? ≠ some '/') :
    readRat cs = IntRat.simplify ⟨n, 1⟩ := by
  have e := (extractInt_text (v0 := 0) h).1 hn
  have : ∃ s : IStream, ratDenom 1 (extractInt 0 (.ofChars cs)).2 = (1, s) ∧ s.fail = false := by
    rw [e]
    cases tail with
    | nil => exact ⟨_, rfl, rfl⟩
    | cons c r =>
      have hc : c ≠ '/' := by simpa using ht
      refine ⟨⟨c :: r, false, false⟩, ?_, rfl⟩
      simp [ratDenom, IStream.peek, IStream.good, hc]
  obtain ⟨s, hs, hf⟩ := this
  rw [readRat_of (by rw [e]) hs, hf]
  simp only [Bool.false_eq_true, if_false]
  cases IntRat.simplify ⟨n, 1⟩ <;> rfl

/-- Numerator and denominator. -/
theorem readRat_frac {cs t tail : List Char} {n d : Int} (h : IntText cs n ('/' :: t)) (hn : InInt n)
    (h' : IntText t d tail) (hd : InInt d) : readRat cs = IntRat.simplify ⟨n, d⟩ := by
  have e := (extractInt_text (v0 := 0) h).1 hn
  have e' := (extractInt_text (v0 := 1) h').1 hd
  have : ratDenom 1 (extractInt 0 (.ofChars cs)).2 = (d, ⟨tail, tail.isEmpty, false⟩) := by
    rw [e]
    simpa [ratDenom, IStream.peek, IStream.good, IStream.ofChars] using e'
  rw [readRat_of (by rw [e]) this]
  simp only [Bool.false_eq_true, if_false]
  cases IntRat.simplify ⟨n, d⟩ <;> rfl

/-- The denominator's text is missing or out of range: refused, unless the fraction itself cannot be formed. -/
theorem readRat_bad_denom {cs t : List Char} {n : Int} (h : IntText cs n ('/' :: t)) (hn : InInt n)
    (h' : ∀ d tail, IntText t d tail → ¬ InInt d) : ∀ q, readRat cs ≠ ok q := by
  have e := (extractInt_text (v0 := 0) h).1 hn
  have hf : (extractInt 1 (.ofChars t)).2.fail = true := by
    by_cases hx : ∃ d tail, IntText t d tail
    · obtain ⟨d, tail, hx⟩ := hx
      exact ((extractInt_text (v0 := 1) hx).2 (h' d tail hx)).1
    · exact (extractInt_none hx).1
  have : ratDenom 1 (extractInt 0 (.ofChars cs)).2 = extractInt 1 (.ofChars t) := by
    rw [e]
    simp [ratDenom, IStream.peek, IStream.good, IStream.ofChars]
  intro q hq
  rw [readRat_of (by rw [e]) (this.trans (Prod.eta _).symm), hf] at hq
  revert hq
  simp only [if_true]
  cases IntRat.simplify _ <;> simp

end Spffl.Scan
