import Verif.Proof.PolyText
import Verif.Props.Scan

/-!
# C93: polynomials as text
-/

namespace Spffl.Props
namespace PText93
open Res Spffl.Scan Spffl.PText Polynomial CPoly Cyclo

/-! ### fp_poly_t -/

/-- `x` is the residue of the `int` that `t` starts with. -/
def FpReads (p : ℕ) (t : List Char) (x : ZMod p) : Prop := ∃ n tail, IntText t n tail ∧ InInt n ∧ x = (n : ZMod p)

theorem residue_val {p : ℕ} {a : IntMod} {x : ZMod p} (h : IntMod.Rep p a x) : a.residue = x.val := by
  haveI : NeZero p := ⟨by have := h.pos; omega⟩
  obtain ⟨_, h1, h2, h3⟩ := h
  obtain ⟨k, hk⟩ : ∃ k : ℕ, a.residue = k := ⟨a.residue.toNat, by omega⟩
  rw [hk] at h2 h3 ⊢
  rw [← h3, Int.cast_natCast, ZMod.val_natCast, Nat.mod_eq_of_lt (by omega)]

theorem fp_cmp {m : ℕ} (hm : 0 < m) (hm' : m ≤ 1073741824) :
    CoefCmp False IntMod.cops (IntMod.Rep m) (fun x y => x.val < y.val) where
  sub0 h := (IntMod.sub_ok hm' h h).sat.mono fun _ hr => by rwa [sub_self] at hr
  eq := by
    intro a b x y h h'
    show (IntMod.eq a b).Sat _ _
    rw [IntMod.eq_ok h h', Sat_ok]; simp
  lt := by
    intro a b x y h h'
    show (IntMod.lt a b).Sat _ _
    unfold IntMod.lt
    rw [IntMod.check_moduli_ok h h', ok_bind, Sat_ok, decide_eq_true_iff, residue_val h, residue_val h']
    omega
  gt := by
    intro a b x y h h'
    show (do IntMod.check_moduli a b; ok (decide (b.residue < a.residue)) : Res Bool).Sat _ _
    rw [IntMod.check_moduli_ok h h', ok_bind, Sat_ok, decide_eq_true_iff, residue_val h, residue_val h']
    omega
  psub0 := by
    intro a x h
    show (IntMod.mk' 0 a.modulus).Sat _ _
    rw [h.1]
    exact (IntMod.mk'_ok h.pos (by unfold InInt; omega) (by decide)).sat.mono fun r hr => by simpa using hr
  irrefl x := lt_irrefl _
  asymm x y := lt_asymm
  total x y := by
    rcases lt_trichotomy x.val y.val with h | h | h
    · exact Or.inr (Or.inl h)
    · haveI : NeZero m := ⟨by omega⟩
      exact Or.inl (ZMod.val_injective m h)
    · exact Or.inr (Or.inr h)

theorem rep_emod {m : ℕ} (hm : 0 < m) (n : Int) : IntMod.Rep m ⟨n % m, m⟩ (n : ZMod m) := by
  refine ⟨rfl, Int.emod_nonneg _ (by omega), Int.emod_lt_of_pos _ (by omega), ?_⟩
  simp

theorem fp_one {p : ℕ} (hp : 0 < p) (hp' : InInt p) :
    OneSpec False (IntMod.Rep p) (modFromString p) (FpReads p) where
  yes := by
    rintro t x ⟨n, tail, h, hn, rfl⟩
    rw [(Scan91.C91_mod_from_string (by omega) hp' t).2 n tail h hn]
    exact ⟨_, rfl, rep_emod hp n⟩
  no := by
    intro t h
    exact (Scan91.C91_mod_from_string (by omega) hp' t).1 fun k tail hk hin => h _ ⟨k, tail, hk, hin, rfl⟩

theorem digVal_lt {c : Char} (h : isDig c = true) : digVal c < 10 := by
  unfold isDig at h
  unfold digVal
  simp only [decide_eq_true_eq] at h
  have e0 : '0'.toNat = 48 := rfl
  have e9 : '9'.toNat = 57 := rfl
  omega

theorem fp_digit {p : ℕ} (hp : 0 < p) (hp' : InInt p) :
    OneSpec False (IntMod.Rep p) (fpDigit p) (fun c x => isDig c = true ∧ x = (digVal c : ZMod p)) where
  yes := by
    rintro c x ⟨hc, rfl⟩
    unfold fpDigit
    rw [if_pos hc]
    have := digVal_lt hc
    refine (IntMod.mk'_ok hp hp' (r := digVal c) (by unfold InInt; omega)).sat.bind fun a ha => ?_
    exact ⟨a, rfl, by simpa using ha⟩
  no := by
    intro c h
    unfold fpDigit
    rw [if_neg fun hc => h _ ⟨hc, rfl⟩]

/-- C93: with a modulus below 10 a text without commas has a coefficient for each digit, the highest first; a text with
any other character is refused.  The empty text is undefined. -/
theorem C93_fp_digits {p : ℕ} (hp : 0 < p) (hp10 : p < 10) {cs : List Char} (hc : ',' ∉ cs) :
    (cs ≠ [] → (∀ c ∈ cs, isDig c = true) → (fpFromString p cs).Ok fun r =>
      ∃ b, r = .val b ∧ PRep (IntMod.Rep p) b (horner (cs.map fun c => (digVal c : ZMod p)))) ∧
    ((∃ c ∈ cs, isDig c = false) → (fpFromString p cs).Ok fun r => ∃ b, r = .refused b) ∧
    (cs = [] → fpFromString p cs = ub) := by
  have hpI : InInt p := by unfold InInt; omega
  have e : fpFromString p cs = (readCoefs (fpDigit p) cs >>= finish IntMod.cops cs.length) := by
    unfold fpFromString
    rw [if_pos ⟨hc, by omega⟩]
  rw [e]
  refine ⟨fun hne hd => ?_, fun ⟨c, hc, hd⟩ => ?_, ?_⟩
  · refine sat_false.1 (read_yes (fp_cmp hp (by omega)) (fp_digit hp hpI).yes ?_ hne)
    clear hne e hc
    induction cs with
    | nil => exact .nil
    | cons c cs ih => exact .cons ⟨hd c (by simp), rfl⟩ (ih fun d h => hd d (by simp [h]))
  · refine sat_false.1 (read_no (fp_digit hp hpI) ⟨c, hc, ?_⟩)
    rintro x ⟨h, _⟩
    rw [hd] at h; cases h
  · rintro rfl; rfl

example : fpFromString 7 "1052".toList = ok (.val ⟨3, [⟨2, 7⟩, ⟨5, 7⟩, ⟨0, 7⟩, ⟨1, 7⟩]⟩) := by decide +kernel
example : fpFromString 7 "0092".toList = ok (.val ⟨1, [⟨2, 7⟩, ⟨2, 7⟩, ⟨0, 7⟩, ⟨0, 7⟩]⟩) := by decide +kernel
example : fpFromString 7 "1x2".toList = ok (.refused ⟨2, [⟨-1, 0⟩, ⟨-1, 0⟩, ⟨1, 7⟩]⟩) ∧ fpFromString 7 [] = ub := by
  decide +kernel

/-- C93: otherwise the coefficients are the integers that the non-empty stretches between commas start with, the highest
first, each reduced.  If one of these does not start with an `int` the text is refused. -/
theorem C93_fp_list {p : ℕ} (hp : 0 < p) (hp' : p ≤ 1073741824) {cs : List Char} (h : ',' ∈ cs ∨ 10 ≤ p) {ts : List (List Char)}
    (hts : (cs.splitOnP (· == ',')).filter (· ≠ []) = ts) :
    (∀ xs, ts ≠ [] → List.Forall₂ (FpReads p) ts xs → (fpFromString p cs).Ok fun r =>
      ∃ b, r = .val b ∧ PRep (IntMod.Rep p) b (horner xs)) ∧
    ((∃ t ∈ ts, ∀ n tail, IntText t n tail → ¬ InInt n) → (fpFromString p cs).Ok fun r => ∃ b, r = .refused b) := by
  have hpI : InInt p := by unfold InInt; omega
  have e : fpFromString p cs = fromTokens IntMod.cops (modFromString p) ts := by
    unfold fpFromString
    rw [if_neg (by rintro ⟨h1, h2⟩; exact h.elim h1 (by omega)), tokens, hts]
  rw [e]
  refine ⟨fun xs hne hx => ?_, fun ⟨t, ht, hn⟩ => ?_⟩
  · exact sat_false.1 (fromTokens_yes (fp_cmp hp hp') (fp_one hp hpI).yes hx hne)
  · refine sat_false.1 (fromTokens_no (fp_one hp hpI) ⟨t, ht, ?_⟩)
    rintro x ⟨n, tail, h1, h2, _⟩
    exact hn n tail h1 h2

example : fpFromString 13 "1,-1, 20".toList = ok (.val ⟨2, [⟨7, 13⟩, ⟨12, 13⟩, ⟨1, 13⟩]⟩) := by decide +kernel
example : fpFromString 13 "1,x,2".toList = ok (.refused ⟨2, [⟨-1, 0⟩, ⟨-1, 0⟩, ⟨1, 13⟩]⟩) := by decide +kernel

/-- C93, violated: an empty coefficient is not refused but left out, which moves the others. -/
theorem C93_violated_fp_empty {p : ℕ} {a b : List Char} (ha : a ≠ []) (hb : b ≠ []) (hca : ',' ∉ a) (hcb : ',' ∉ b) :
    fpFromString p (a ++ [',', ','] ++ b) = fpFromString p (a ++ [','] ++ b) := by
  have key : tokens ',' (a ++ [',', ','] ++ b) = tokens ',' (a ++ [','] ++ b) := by
    have h1 := tokens_intercalate (sep := ',') (ts := [a, b]) (by simp [hca, hcb]) (by simp [ha, hb])
    have e1 : List.intercalate [','] [a, b] = a ++ [','] ++ b := by simp [List.intercalate]
    rw [e1] at h1
    rw [h1]
    unfold tokens
    have e2 : List.intercalate [','] [a, [], b] = a ++ [',', ','] ++ b := by simp [List.intercalate]
    rw [← List.splitOn_eq_splitOnP, ← e2, List.splitOn_intercalate ',' (by simp [hca, hcb]) (by simp)]
    simp [ha, hb]
  unfold fpFromString
  rw [if_neg (by simp), if_neg (by simp), key]

example : fpFromString 13 "1,,2".toList = ok (.val ⟨1, [⟨2, 13⟩, ⟨1, 13⟩]⟩) := by decide +kernel

/-- C93, violated: what follows the integer in a coefficient is dropped, whatever it is. -/
theorem C93_violated_fp_garbage {p : ℕ} (hp : 10 ≤ p) (hp' : p ≤ 1073741824) {n : Int} (hn : InInt n) {g : List Char}
    (hg : ',' ∉ g) (hd : ∀ c ∈ g.head?, isDig c = false) :
    (fpFromString p (showInt n ++ g)).Ok fun r => ∃ b, r = .val b ∧ PRep (IntMod.Rep p) b (C (n : ZMod p)) := by
  have hc : ',' ∉ showInt n := by
    have hs := (showNat_spec n.natAbs).2.1
    have hx : ',' ∉ showNat n.natAbs := fun h => by have := hs _ h; revert this; decide
    unfold showInt
    split <;> simp [hx]
  have hne : showInt n ++ g ≠ [] := by
    have := (showNat_spec n.natAbs).2.2.1
    unfold showInt
    split <;> simp [this]
  have hts : ((showInt n ++ g).splitOnP (· == ',')).filter (· ≠ []) = [showInt n ++ g] := tokens_single (by simp [hc, hg]) hne
  have := (C93_fp_list (by omega) hp' (Or.inr hp) hts).1 [(n : ZMod p)] (by simp)
    (.cons ⟨n, g, showInt_text n g hd, hn, rfl⟩ .nil)
  simpa [horner] using this

example : fpFromString 13 "5x^2+1".toList = ok (.val ⟨0, [⟨5, 13⟩]⟩) := by decide +kernel

/-- C93, violated: a text of separators only is reported as refused, but the object then points to the array it has
deleted. -/
theorem C93_violated_fp_dangling {p : ℕ} {cs : List Char} (hp : cs ≠ [] ∨ 10 ≤ p) (hc : ∀ c ∈ cs, c = ',') :
    fpFromString p cs = ok .dangling := by
  have e : tokens ',' cs = [] := by
    unfold tokens
    rw [List.filter_eq_nil_iff]
    have : ∀ t ∈ cs.splitOnP (· == ','), t = [] := by
      clear hp
      induction cs with
      | nil => simp
      | cons c cs ih =>
        obtain rfl := hc c (by simp)
        have := ih fun d hd => hc d (by simp [hd])
        rw [List.splitOnP_cons]
        simpa using this
    intro t ht
    simp [this t ht]
  unfold fpFromString
  rw [if_neg, e]
  · rfl
  · rintro ⟨h1, h2⟩
    rcases hp with hp | hp
    · obtain ⟨c, r, rfl⟩ := List.exists_cons_of_ne_nil hp
      exact h1 (by rw [hc c (by simp)]; simp)
    · omega

example : fpFromString 7 ",,".toList = ok .dangling := by decide +kernel

/-- C93, violated: for a modulus above 2^30 reading is undefined whenever the constant coefficient is so large that the
sum of both leaves the `int` range, although the polynomial is one the type can hold. -/
theorem C93_violated_fp_large_modulus {p : ℕ} (hp : 10 ≤ p) (hp' : InInt p) {n : Int} (hn : 0 ≤ n) (hnp : n < p)
    (hbig : INT_MAX < p + n) : fpFromString p (showInt n) = ub := by
  have hmax : INT_MAX = 2147483647 := rfl
  have hin : InInt n := by unfold InInt at *; omega
  have hx : ',' ∉ showInt n := by
    have hs := (showNat_spec n.natAbs).2.1
    unfold showInt
    rw [if_neg (by omega)]
    intro h; have := hs _ h; revert this; decide
  have hne : showInt n ≠ [] := by
    unfold showInt
    rw [if_neg (by omega)]
    exact (showNat_spec n.natAbs).2.2.1
  unfold fpFromString
  rw [if_neg (by omega), tokens_single hx hne]
  unfold fromTokens readCoefs
  rw [if_neg (by simp), (Scan91.C91_mod_round_trip (a := ⟨n, p⟩) hn hnp hp').2.2]
  have e : IntMod.sub ⟨n, p⟩ ⟨n, p⟩ = ub := by
    unfold IntMod.sub IntMod.check_moduli IntMod.check_modulus iadd
    simp only [show (p : Int) ≠ 0 by omega, if_false, ok_bind, ne_eq, not_true_eq_false]
    rw [chk_ub (by unfold InInt; omega)]; rfl
  show (CPoly.recompute_degree IntMod.cops ⟨0, [⟨n, p⟩]⟩ >>= fun p => ok (Parsed.val p)) = ub
  unfold CPoly.recompute_degree
  show ((IntMod.sub ⟨n, p⟩ ⟨n, p⟩ >>= fun zero => _) >>= fun _ => _) = ub
  rw [e]; rfl

example : fpFromString 2147483647 "1".toList = ub ∧
    fpFromString 2147483647 "0".toList = ok (.val ⟨0, [⟨0, 2147483647⟩]⟩) := by decide +kernel

/-! #### Printing and reading back -/

/-- C93: what is printed: the residues in decimal, the highest coefficient first, with commas if the modulus is above 9. -/
theorem C93_fp_print {p : ℕ} (hp : 0 < p) {a : CPoly IntMod} {f : (ZMod p)[X]} (ha : PRep (IntMod.Rep p) a f) :
    fpShow a = ok (List.intercalate (if 9 < p then [','] else [])
      ((List.range (f.natDegree + 1)).reverse.map fun i => showInt (f.coeff i).val)) := by
  have hget : ∀ i, i < a.degree + 1 → (get_coeff IntMod.cops a i).Ok fun c => IntMod.Rep p c (f.coeff i) := by
    intro i hi
    unfold get_coeff
    rw [if_neg (by omega), if_neg (by omega), Int.toNat_natCast]
    exact sat_false.1 (rd_sat (ha.co i hi))
  unfold fpShow
  obtain ⟨c, hc, hc'⟩ := hget 0 (by omega)
  rw [show ((0 : ℕ) : Int) = 0 from rfl] at hc
  rw [hc, ok_bind]
  have hd := down_ok (f := fun i => (get_coeff IntMod.cops a i >>= fun c => ok (showInt c.residue)))
    (g := fun i => showInt (f.coeff i).val) (n := a.degree + 1) (fun i hi => by
      obtain ⟨c, h1, h2⟩ := hget i hi
      rw [h1, ok_bind, residue_val h2])
  rw [hd, ok_bind, ha.deg, hc'.1]
  simp

example : fpShow ⟨2, [⟨12, 13⟩, ⟨0, 13⟩, ⟨1, 13⟩]⟩ = ok "1,0,12".toList ∧
    fpShow ⟨2, [⟨4, 5⟩, ⟨0, 5⟩, ⟨1, 5⟩]⟩ = ok "104".toList := by decide +kernel

theorem showInt_ne {n : Int} : showInt n ≠ [] := by
  have := (showNat_spec n.natAbs).2.2.1
  unfold showInt
  split <;> simp [this]

theorem showInt_dig {n : ℕ} : ∀ c ∈ showInt (n : Int), isDig c = true := by
  unfold showInt
  rw [if_neg (by omega)]
  exact (showNat_spec _).2.1

theorem showInt_digit {n : ℕ} (h : n < 10) : showInt (n : Int) = [Char.ofNat (n + 48)] := by
  unfold showInt
  rw [if_neg (by omega), Int.natAbs_natCast, showNat, if_pos h]

/-- The text denotes a polynomial over F_p: the digits one by one, or, with commas or for `p ≥ 10`, the numbers between
the commas; the highest coefficient first. -/
def FpDenotes (p : ℕ) (t : List Char) (f : (ZMod p)[X]) : Prop :=
  (',' ∉ t ∧ p < 10 ∧ t ≠ [] ∧ (∀ c ∈ t, isDig c = true) ∧ f = horner (t.map fun c => (digVal c : ZMod p))) ∨
   ((',' ∈ t ∨ 10 ≤ p) ∧ ∃ xs, (t.splitOnP (· == ',')).filter (· ≠ []) ≠ [] ∧
      List.Forall₂ (FpReads p) ((t.splitOnP (· == ',')).filter (· ≠ [])) xs ∧ f = horner xs)

/-- Such a text made of digits and commas. -/
def FpText (p : ℕ) (t : List Char) (f : (ZMod p)[X]) : Prop :=
  t ≠ [] ∧ (∀ c ∈ t, isDig c = true ∨ c = ',') ∧ FpDenotes p t f

theorem fpText_char {p : ℕ} {t : List Char} {f : (ZMod p)[X]} (h : FpText p t f) : ∀ c ∈ t, fpChar c = true := fun c hc => by
  unfold fpChar
  rcases h.2.1 c hc with h | h <;> simp [h]

theorem denotes_ok {p : ℕ} (hp : 0 < p) (hb : p ≤ 1073741824) {t : List Char} {f : (ZMod p)[X]} (h : FpDenotes p t f) :
    (fpFromString p t).Ok fun r => ∃ b, r = .val b ∧ PRep (IntMod.Rep p) b f := by
  obtain ⟨h3, h4, h1, h2, rfl⟩ | ⟨h3, xs, h4, h5, rfl⟩ := h
  · exact (C93_fp_digits hp h4 h3).1 h1 h2
  · exact (C93_fp_list hp hb h3 rfl).1 xs h4 h5

/-- The residues of the coefficients below `n`, printed, are read as `f`. -/
theorem fp_text {p : ℕ} (hp : 0 < p) (hp' : p ≤ 1073741824) (f : (ZMod p)[X]) {n : ℕ} (hn : f.natDegree < n) {t : List Char}
    (ht : t = List.intercalate (if 9 < p then [','] else []) ((List.range n).reverse.map fun i => showInt ((f.coeff i).val : Int))) :
    FpText p t f := by
  subst ht
  have hn0 : n ≠ 0 := by omega
  haveI : NeZero p := ⟨by omega⟩
  by_cases h9 : 9 < p
  · rw [if_pos h9]
    set ts := (List.range n).reverse.map fun i => showInt ((f.coeff i).val : Int) with hts
    have hne : ts ≠ [] := by simp [hts, hn0]
    have hsep : ∀ t ∈ ts, ',' ∉ t := by
      intro t ht
      rw [hts, List.mem_map] at ht
      obtain ⟨i, _, rfl⟩ := ht
      intro h; have := showInt_dig _ h; revert this; decide
    have hnn : ∀ t ∈ ts, t ≠ [] := by
      intro t ht
      rw [hts, List.mem_map] at ht
      obtain ⟨i, _, rfl⟩ := ht
      exact showInt_ne
    have htok := tokens_intercalate hsep hnn
    have hall : ∀ (l : List (List Char)), (∀ t ∈ l, ∀ c ∈ t, isDig c = true) → ∀ c ∈ List.intercalate [','] l, isDig c = true ∨ c = ',' := by
      intro l hl c hc
      induction l with
      | nil => simp [List.intercalate] at hc
      | cons t l ih =>
        have hone : ∀ c ∈ t, isDig c = true ∨ c = ',' := fun c hc => Or.inl (hl t (by simp) c hc)
        cases l with
        | nil => simp at hc; exact hone c hc
        | cons s l =>
          rw [List.intercalate_cons_cons] at hc
          simp only [List.mem_append, List.mem_singleton] at hc
          rcases hc with (hc | rfl) | hc
          · exact hone c hc
          · exact Or.inr rfl
          · exact ih (fun t ht => hl t (by simp [ht])) hc
    refine ⟨?_, hall ts ?_, ?_⟩
    · intro h
      rw [h] at htok
      exact hne htok.symm
    · intro t ht
      rw [hts, List.mem_map] at ht
      obtain ⟨i, _, rfl⟩ := ht
      exact showInt_dig
    · refine Or.inr ⟨Or.inr h9, (List.range n).reverse.map f.coeff, ?_, ?_, (horner_coeffs f hn).symm⟩
      · exact fun h => hne (htok.symm.trans h)
      · rw [show ((List.intercalate [','] ts).splitOnP (· == ',')).filter (· ≠ []) = ts from htok]
        rw [hts, List.forall₂_map_left_iff, List.forall₂_map_right_iff, List.forall₂_same]
        intro i _
        have hlt := ZMod.val_lt (f.coeff i)
        refine ⟨((f.coeff i).val : Int), [], by simpa using showInt_text _ [] (by simp), ?_, ?_⟩
        · unfold InInt; omega
        · simp
  · rw [if_neg h9, PText.intercalate_nil]
    have hval : ∀ i, (f.coeff i).val < 10 := fun i => by have := ZMod.val_lt (f.coeff i); omega
    have e : ((List.range n).reverse.map fun i => showInt ((f.coeff i).val : Int)).flatten
        = (List.range n).reverse.map fun i => Char.ofNat ((f.coeff i).val + 48) := by
      have : (fun i => showInt ((f.coeff i).val : Int)) = fun i => [Char.ofNat ((f.coeff i).val + 48)] :=
        funext fun i => showInt_digit (hval i)
      rw [this]
      generalize (List.range n).reverse = l
      induction l with
      | nil => rfl
      | cons i l ih => simp [ih]
    rw [e]
    have hdig : ∀ i, isDig (Char.ofNat ((f.coeff i).val + 48)) = true ∧ digVal (Char.ofNat ((f.coeff i).val + 48)) = (f.coeff i).val := by
      intro i
      unfold isDig digVal
      rw [ofNat_dig (hval i)]
      have h0 : '0'.toNat = 48 := rfl
      have h9 : '9'.toNat = 57 := rfl
      have := hval i
      exact ⟨by rw [decide_eq_true_eq]; omega, by omega⟩
    have hall : ∀ c ∈ (List.range n).reverse.map fun i => Char.ofNat ((f.coeff i).val + 48), isDig c = true := by
      intro c hc
      rw [List.mem_map] at hc
      obtain ⟨i, _, rfl⟩ := hc
      exact (hdig i).1
    refine ⟨by simp [hn0], fun c hc => Or.inl (hall c hc), Or.inl ⟨fun h => by have := hall _ h; revert this; decide, by omega,
      by simp [hn0], hall, ?_⟩⟩
    rw [List.map_map, show ((fun c => (digVal c : ZMod p)) ∘ fun i => Char.ofNat ((f.coeff i).val + 48)) = f.coeff from
      funext fun i => by simp [(hdig i).2], horner_coeffs f hn]

/-- C93: what is printed of a polynomial is read back as the same polynomial. -/
theorem C93_fp_round_trip {p : ℕ} (hp : 0 < p) (hp' : p ≤ 1073741824) {a : CPoly IntMod} {f : (ZMod p)[X]}
    (ha : PRep (IntMod.Rep p) a f) : ∃ t, fpShow a = ok t ∧ t ≠ [] ∧ (∀ c ∈ t, fpChar c = true) ∧
      (fpFromString p t).Ok fun r => ∃ b, r = .val b ∧ PRep (IntMod.Rep p) b f :=
  by
  have := fp_text hp hp' f (Nat.lt_succ_self _) rfl
  exact ⟨_, C93_fp_print hp ha, this.1, fpText_char this, denotes_ok hp hp' this.2.2⟩

example : fpFromString 13 "1,0,12".toList = ok (.val ⟨2, [⟨12, 13⟩, ⟨0, 13⟩, ⟨1, 13⟩]⟩) := by decide +kernel

/-- Not a value. -/
def failed {α : Type} : Parsed α → Bool
  | .val _ => false
  | _ => true

/-- C93: `operator>>` skips blanks, hands the digits and commas that follow to `from_string` with the modulus of the
object read into, and leaves the rest. -/
theorem C93_fp_stream {a : CPoly IntMod} {c0 : IntMod} (ha : a.coeffs[0]? = some c0) {ws t rest : List Char}
    (hw : ∀ c ∈ ws, blank c = true) (ht : t ≠ []) (hc : ∀ c ∈ t, fpChar c = true) (hr : ∀ c ∈ rest.head?, fpChar c = false)
    {r : Parsed IntMod} (h : fpFromString c0.modulus t = ok r) :
    fpExtract a (ws ++ t ++ rest) = ok (r, ⟨rest, rest.isEmpty, failed r⟩) := by
  obtain ⟨c, t', rfl⟩ := List.exists_cons_of_ne_nil ht
  have hcb : blank c = false := by
    have := hc c (by simp)
    by_contra hb
    simp only [blank, Bool.not_eq_false, Bool.or_eq_true, decide_eq_true_eq] at hb
    rcases hb with (rfl | rfl) | rfl <;> exact absurd this (by decide)
  have hd : (ws ++ (c :: t') ++ rest).dropWhile blank = c :: t' ++ rest := by
    rw [List.append_assoc, List.dropWhile_append_of_pos hw, List.cons_append, List.dropWhile_cons_of_neg (by simp [hcb])]
  have htw : (c :: t' ++ rest).takeWhile fpChar = c :: t' := by
    rw [List.takeWhile_append_of_pos hc]
    cases rest with
    | nil => simp
    | cons d rest => rw [List.takeWhile_cons_of_neg (by simp [hr d (by simp)])]; simp
  have hdw : (c :: t' ++ rest).dropWhile fpChar = rest := by
    rw [List.dropWhile_append_of_pos hc]
    cases rest with
    | nil => simp
    | cons d rest => rw [List.dropWhile_cons_of_neg (by simp [hr d (by simp)])]
  have hrd : rd a.coeffs 0 = ok c0 := by unfold rd; rw [ha]
  unfold fpExtract
  rw [hrd, ok_bind, hd]
  simp only [List.cons_append] at htw hdw ⊢
  rw [htw, hdw, if_neg (by simp), h, ok_bind]
  cases r <;> rfl

example : fpExtract ⟨0, [⟨0, 13⟩]⟩ " 1,0,12;3".toList =
    ok (.val ⟨2, [⟨12, 13⟩, ⟨0, 13⟩, ⟨1, 13⟩]⟩, ⟨";3".toList, false, false⟩) := by decide +kernel

/-- C93: a text in which neither a digit nor a comma comes first is refused, and the object kept. -/
theorem C93_fp_stream_refused {a : CPoly IntMod} (ha : a.coeffs ≠ []) {ws rest : List Char} (hw : ∀ c ∈ ws, blank c = true)
    (hr : ∀ c ∈ rest.head?, fpChar c = false ∧ blank c = false) :
    fpExtract a (ws ++ rest) = ok (.val a, ⟨rest, rest.isEmpty, true⟩) := by
  obtain ⟨c0, cs0, hc0⟩ := List.exists_cons_of_ne_nil ha
  have hrd : rd a.coeffs 0 = ok c0 := by rw [hc0]; rfl
  unfold fpExtract
  rw [hrd, ok_bind, List.dropWhile_append_of_pos hw]
  cases rest with
  | nil => rfl
  | cons c rest =>
    obtain ⟨h1, h2⟩ := hr c (by simp)
    rw [List.dropWhile_cons_of_neg (by simp [h2])]
    simp [h1]

example : fpExtract ⟨0, [⟨3, 13⟩]⟩ " x".toList = ok (.val ⟨0, [⟨3, 13⟩]⟩, ⟨['x'], false, true⟩) := by decide +kernel

/-- C93: printed, then read from a stream with anything after it that is neither a digit nor a comma. -/
theorem C93_fp_stream_round_trip {p : ℕ} (hp : 0 < p) (hp' : p ≤ 1073741824) {a b : CPoly IntMod} {f g : (ZMod p)[X]}
    (ha : PRep (IntMod.Rep p) a f) (hb : PRep (IntMod.Rep p) b g) {ws rest : List Char} (hw : ∀ c ∈ ws, blank c = true)
    (hr : ∀ c ∈ rest.head?, fpChar c = false) : ∃ t c, fpShow a = ok t ∧
      fpExtract b (ws ++ t ++ rest) = ok (.val c, ⟨rest, rest.isEmpty, false⟩) ∧ PRep (IntMod.Rep p) c f := by
  obtain ⟨t, h1, h2, h3, r, h4, c, rfl, h6⟩ := C93_fp_round_trip hp hp' ha
  obtain ⟨c0, hc0, hc0'⟩ := hb.c0
  refine ⟨t, c, h1, ?_, h6⟩
  rw [C93_fp_stream hc0 hw h2 h3 hr (r := .val c) (by rw [hc0'.1]; exact h4)]
  rfl

/-! ### q_poly_t -/

/-- `n` is the integer that `t` starts with. -/
def QReads (t : List Char) (n : ℤ) : Prop := ∃ tail, IntText t n tail ∧ InInt n ∧ n ≠ INT_MIN

theorem ofInt_rep {n : Int} (h : InInt n) (h' : n ≠ INT_MIN) : IntRat.ofInt n = ok ⟨n, 1⟩ ∧ ZRep ⟨n, 1⟩ n := by
  have e : INT_MIN = -2147483648 := rfl
  have hb : |n| ≤ 2147483647 := by rw [abs_le]; unfold InInt at h; omega
  exact ⟨simplify_int hb, rfl, hb⟩

theorem q_one (t : List Char) :
    (∀ n, QReads t n → (qOne t).Ok fun o => ∃ a, o = some a ∧ ZRep a n) ∧
    ((∀ n tail, IntText t n tail → ¬ InInt n) → qOne t = ok none) ∧
    (∀ tail, IntText t INT_MIN tail → qOne t = ub) := by
  refine ⟨fun n ⟨tail, h, hn, hm⟩ => ?_, fun h => ?_, fun tail h => ?_⟩
  · unfold qOne
    rw [(extractInt_text (v0 := 0) h).1 hn]
    simp only [Bool.false_eq_true, if_false]
    rw [(ofInt_rep hn hm).1]
    exact ⟨_, rfl, _, rfl, (ofInt_rep hn hm).2⟩
  · have := (readInt_throw_iff t).2 h
    unfold readInt at this
    unfold qOne
    simp only at this ⊢
    split at this
    · rename_i hf; simp [hf]
    · cases this
  · unfold qOne
    rw [(extractInt_text (v0 := 0) h).1 (by decide)]
    simp only [Bool.false_eq_true, if_false]
    have : IntRat.ofInt INT_MIN = ub := by decide +kernel
    rw [this]; rfl

/-- C93: a text without commas is a row of digits, each a coefficient, the highest first. -/
theorem C93_q_digits {cs : List Char} (hc : ',' ∉ cs) :
    (cs ≠ [] → (∀ c ∈ cs, isDig c = true) → (qFromString cs).Ok fun r =>
      ∃ b, r = .val b ∧ PRep ZRep b (horner (cs.map fun c => (digVal c : ℤ)))) ∧
    ((∃ c ∈ cs, isDig c = false) → (qFromString cs).Ok fun r => ∃ b, r = .refused b) ∧
    (cs = [] → qFromString cs = ub) := by
  have e : qFromString cs = (readCoefs qDigit cs >>= finish IntRat.cops cs.length) := by
    unfold qFromString
    rw [if_pos hc]
  have H : OneSpec False ZRep qDigit (fun c x => isDig c = true ∧ x = (digVal c : ℤ)) := by
    refine ⟨?_, ?_⟩
    · rintro c x ⟨h, rfl⟩
      unfold qDigit
      have hlt := digVal_lt h
      have e : INT_MIN = -2147483648 := rfl
      rw [if_pos h, (ofInt_rep (n := digVal c) (by unfold InInt; omega) (by omega)).1]
      exact ⟨_, rfl, (ofInt_rep (n := digVal c) (by unfold InInt; omega) (by omega)).2⟩
    · intro c h
      unfold qDigit
      rw [if_neg fun hc => h _ ⟨hc, rfl⟩]
  rw [e]
  refine ⟨fun hne hd => ?_, fun ⟨c, hc, hd⟩ => ?_, ?_⟩
  · refine sat_false.1 (read_yes z_cmp H.yes ?_ hne)
    clear hne e hc
    induction cs with
    | nil => exact .nil
    | cons c cs ih => exact .cons ⟨hd c (by simp), rfl⟩ (ih fun d h => hd d (by simp [h]))
  · refine sat_false.1 (read_no H ⟨c, hc, ?_⟩)
    rintro x ⟨h, _⟩
    rw [hd] at h; cases h
  · rintro rfl; rfl

example : qFromString "302".toList = ok (.val ⟨2, [⟨2, 1⟩, ⟨0, 1⟩, ⟨3, 1⟩]⟩) := by decide +kernel

/-- C93: a text with commas has the integers that the non-empty stretches between them start with as coefficients, the
highest first.  Reading stops at the first stretch that does not start with an `int`; the least `int` is undefined. -/
theorem C93_q_list {cs : List Char} (h : ',' ∈ cs) {ts : List (List Char)}
    (hts : (cs.splitOnP (· == ',')).filter (· ≠ []) = ts) :
    (∀ xs, ts ≠ [] → List.Forall₂ QReads ts xs → (qFromString cs).Ok fun r => ∃ b, r = .val b ∧ PRep ZRep b (horner xs)) ∧
    (∀ as t bs xs, ts = as ++ t :: bs → List.Forall₂ QReads as xs →
      ((∀ n tail, IntText t n tail → ¬ InInt n) → (qFromString cs).Ok fun r => ∃ b, r = .refused b) ∧
      (∀ tail, IntText t INT_MIN tail → qFromString cs = ub)) ∧
    (ts = [] → qFromString cs = ok .dangling) := by
  have e : qFromString cs = fromTokens IntRat.cops qOne ts := by
    unfold qFromString
    rw [if_neg (by simpa using h), tokens, hts]
  rw [e]
  refine ⟨fun xs hne hx => ?_, ?_, ?_⟩
  · exact sat_false.1 (fromTokens_yes z_cmp (fun t n h => ((q_one t).1 n h).sat) hx hne)
  · rintro as t bs xs rfl hx
    have := fromTokens_stop (rep := ZRep) (Reads := QReads) (one := qOne) (t := t) (bs := bs) (fun t n h => (q_one t).1 n h) hx IntRat.cops
    exact ⟨fun hn => this.1 ((q_one t).2.1 hn), fun tail ht => this.2 ((q_one t).2.2 tail ht)⟩
  · rintro rfl; rfl

example : qFromString "1,-20,3".toList = ok (.val ⟨2, [⟨3, 1⟩, ⟨-20, 1⟩, ⟨1, 1⟩]⟩) ∧ qFromString ",".toList = ok .dangling ∧
    qFromString "1,-2147483648".toList = ub := by decide +kernel

theorem showRat_ne (a : IntRat) : showRat a ≠ [] := by
  unfold showRat
  split <;> simp [showInt_ne]

theorem showInt_no {n : Int} {c : Char} (hc : isDig c = false) (hc' : c ≠ '-') : c ∉ showInt n := by
  have hs := (showNat_spec n.natAbs).2.1
  have hx : c ∉ showNat n.natAbs := fun h => by rw [hs _ h] at hc; cases hc
  unfold showInt
  split <;> simp [hx, hc']

theorem showRat_no (a : IntRat) : ',' ∉ showRat a := by
  unfold showRat
  split <;> simp [showInt_no (c := ',') rfl (by decide)]

/-- The text of a rational starts with its numerator. -/
theorem showRat_text (a : IntRat) : ∃ tail, IntText (showRat a) a.numer tail := by
  unfold showRat
  split
  · exact ⟨_, showInt_text _ _ (by simp; decide)⟩
  · exact ⟨[], by simpa using showInt_text a.numer [] (by simp)⟩

theorem q_texts {a : CPoly IntRat} {f : ℚ[X]} (ha : PRep IntRat.Rep a f) : ∃ g : ℕ → IntRat,
    (∀ i, i < f.natDegree + 1 → IntRat.Rep (g i) (f.coeff i)) ∧
    qShow a = ok (List.intercalate [','] ((List.range (f.natDegree + 1)).reverse.map fun i => showRat (g i))) := by
  have hget : ∀ i, ∃ c, i < a.degree + 1 → get_coeff IntRat.cops a i = ok c ∧ IntRat.Rep c (f.coeff i) := by
    intro i
    by_cases h : i < a.degree + 1
    · obtain ⟨c, h1, h2⟩ := get_coeff_le ha (i := i) (by omega)
      exact ⟨c, fun _ => ⟨h1, h2⟩⟩
    · exact ⟨⟨0, 1⟩, fun h' => absurd h' h⟩
  choose g hg using hget
  refine ⟨g, fun i hi => (hg i (by rw [← ha.deg]; exact hi)).2, ?_⟩
  unfold qShow
  have hd := down_ok (f := fun i => (get_coeff IntRat.cops a i >>= fun c => ok (showRat c))) (g := fun i => showRat (g i))
    (n := a.degree + 1) (fun i hi => by rw [(hg i hi).1, ok_bind])
  rw [hd, ok_bind, ha.deg]

/-- C93: what is printed of a polynomial of positive degree is read back as the polynomial of the numerators of its
coefficients.  So a polynomial with integer coefficients comes back, and any other one does not (violated). -/
theorem C93_q_round_trip {a : CPoly IntRat} {f : ℚ[X]} (ha : PRep IntRat.Rep a f) (hd : 0 < f.natDegree) :
    ∃ t b, ∃ g : ℤ[X], qShow a = ok t ∧ qFromString t = ok (.val b) ∧ PRep ZRep b g ∧ ∀ i, g.coeff i = (f.coeff i).num := by
  obtain ⟨g, hg, ht⟩ := q_texts ha
  set ts := (List.range (f.natDegree + 1)).reverse.map fun i => showRat (g i) with hts
  have htok : tokens ',' (List.intercalate [','] ts) = ts := by
    refine tokens_intercalate (fun t ht => ?_) (fun t ht => ?_) <;>
    · rw [hts, List.mem_map] at ht
      obtain ⟨i, _, rfl⟩ := ht
      first | exact showRat_no _ | exact showRat_ne _
  have hcomma : ',' ∈ List.intercalate [','] ts := by
    obtain ⟨n, hn⟩ : ∃ n, f.natDegree = n + 1 := ⟨f.natDegree - 1, by omega⟩
    rw [hts, hn, List.range_succ, List.range_succ]
    simp only [List.reverse_append, List.reverse_cons, List.reverse_nil, List.nil_append, List.map_append, List.map_cons, List.map_nil,
      List.cons_append]
    rw [List.intercalate_cons_cons]
    simp
  have hne : ts ≠ [] := by simp [hts]
  have := (C93_q_list hcomma htok).1 ((List.range (f.natDegree + 1)).reverse.map fun i => (f.coeff i).num) hne ?_
  · obtain ⟨r, h1, b, rfl, h3⟩ := this
    refine ⟨_, b, _, ht, h1, h3, fun i => ?_⟩
    rw [coeff_horner, ← List.map_reverse, List.reverse_reverse, List.getD_eq_getElem?_getD, List.getElem?_map]
    rcases Nat.lt_or_ge i (f.natDegree + 1) with hi | hi
    · simp [hi]
    · rw [List.getElem?_eq_none (by simpa using hi), coeff_eq_zero_of_natDegree_lt (by omega)]
      rfl
  · rw [hts, List.forall₂_map_left_iff, List.forall₂_map_right_iff, List.forall₂_same]
    intro i hi
    simp only [List.mem_reverse, List.mem_range] at hi
    have hr := hg i hi
    obtain ⟨tail, htl⟩ := showRat_text (g i)
    rw [hr.num_eq.1] at htl
    exact ⟨tail, htl, by rw [← hr.num_eq.1]; exact hr.inN, by rw [← hr.num_eq.1]; exact hr.ne⟩

example : qShow ⟨1, [⟨1, 2⟩, ⟨-3, 1⟩]⟩ = ok "-3,1/2".toList ∧
    qFromString "-3,1/2".toList = ok (.val ⟨1, [⟨1, 1⟩, ⟨-3, 1⟩]⟩) := by decide +kernel

/-- C93, violated: a constant of at least 10 is printed and read back as a polynomial of positive degree: its digits
become coefficients. -/
theorem C93_violated_q_constant {n : Int} (hn : 10 ≤ n) : ∃ t b g, qShow ⟨0, [⟨n, 1⟩]⟩ = ok t ∧ qFromString t = ok (.val b) ∧
    PRep ZRep b g ∧ 0 < g.natDegree := by
  have hs := showNat_spec n.natAbs
  have hshow : showInt n = showNat n.natAbs := by unfold showInt; rw [if_neg (by omega)]
  have hq : qShow ⟨0, [⟨n, 1⟩]⟩ = ok (showNat n.natAbs) := by
    show ok (List.intercalate [','] [showRat ⟨n, 1⟩]) = _
    have : showRat ⟨n, 1⟩ = showNat n.natAbs := by unfold showRat; rw [if_neg (by simp), hshow]
    rw [this]; simp
  obtain ⟨r, h1, b, rfl, h3⟩ := (C93_q_digits (cs := showNat n.natAbs) (fun h => by have := hs.2.1 _ h; revert this; decide)).1
    hs.2.2.1 hs.2.1
  refine ⟨_, b, _, hq, h1, h3, ?_⟩
  have hlen : 2 ≤ (showNat n.natAbs).length := by
    rw [showNat, if_neg (by omega)]
    have := List.length_pos_of_ne_nil (showNat_spec (n.natAbs / 10)).2.2.1
    simp; omega
  obtain ⟨c, l, hl⟩ := List.exists_cons_of_ne_nil hs.2.2.1
  have hc : digVal c ≠ 0 := by
    intro h0
    have hd := hs.2.1 c (by rw [hl]; simp)
    have : c = '0' := by
      unfold isDig at hd
      simp only [decide_eq_true_eq] at hd
      unfold digVal at h0
      exact Char.toNat_inj.1 (by omega)
    have := hs.2.2.2 (by rw [hl, this]; rfl)
    omega
  have hcoef : (horner ((showNat n.natAbs).map fun c => (digVal c : ℤ))).coeff ((showNat n.natAbs).length - 1) = digVal c := by
    rw [coeff_horner, hl]
    simp [List.getD_eq_getElem?_getD]
  have := le_natDegree_of_ne_zero (p := horner ((showNat n.natAbs).map fun c => (digVal c : ℤ))) (n := (showNat n.natAbs).length - 1)
    (by rw [hcoef]; exact_mod_cast hc)
  omega

example : qShow ⟨0, [⟨12, 1⟩]⟩ = ok "12".toList ∧ qFromString "12".toList = ok (.val ⟨1, [⟨2, 1⟩, ⟨1, 1⟩]⟩) := by decide +kernel

/-- C93, violated: a negative constant or one that is not an integer is refused when read back. -/
theorem C93_violated_q_refused {n d : Int} (h : n < 0 ∨ d ≠ 1) : ∃ t, qShow ⟨0, [⟨n, d⟩]⟩ = ok t ∧
    (qFromString t).Ok fun r => ∃ b, r = .refused b := by
  refine ⟨showRat ⟨n, d⟩, ?_, ?_⟩
  · show ok (List.intercalate [','] [showRat ⟨n, d⟩]) = _
    simp
  · refine (C93_q_digits (showRat_no _)).2.1 ?_
    rcases h with h | h
    · refine ⟨'-', ?_, rfl⟩
      unfold showRat showInt
      split <;> simp [h]
    · refine ⟨'/', ?_, rfl⟩
      unfold showRat
      rw [if_pos h]
      simp

example : qShow ⟨0, [⟨-1, 1⟩]⟩ = ok "-1".toList ∧ qFromString "-1".toList = ok (.refused ⟨1, [⟨0, 1⟩, ⟨0, 1⟩]⟩) := by decide +kernel

/-- C93, violated: `operator>>` refuses every text that starts with a sign, so no polynomial with a negative leading
coefficient can be read from a stream. -/
theorem C93_violated_q_stream_sign (a : CPoly IntRat) {ws rest : List Char} (hw : ∀ c ∈ ws, blank c = true) :
    qExtract a (ws ++ '-' :: rest) = ok (.val a, ⟨'-' :: rest, false, true⟩) := by
  unfold qExtract
  rw [List.dropWhile_append_of_pos hw, List.dropWhile_cons_of_neg (by decide)]
  rfl

example : qExtract ⟨0, [⟨0, 1⟩]⟩ "-1,2".toList = ok (.val ⟨0, [⟨0, 1⟩]⟩, ⟨"-1,2".toList, false, true⟩) := by decide +kernel

end PText93
end Spffl.Props
